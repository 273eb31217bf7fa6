import Verif.Proofs.Device
import Verif.Proofs.Noise

/-!
# Properties of the Noise devices: C66 and C67
-/

set_option linter.unusedSectionVars false

namespace Verif.Props

open Noise Noise.Mem NoiseCrypto
open Spec.Device

/-- The device as the session functions see it. -/
def view [NoiseCrypto] (prologue : Bytes) (n : UInt32) (d : Dev) : Noise.Device :=
  { spriv := d.spriv, spub := xbase d.spriv, prologue, statesCounter := n, peers := d.peers.map fun e => ⟨e.id, e.key⟩,
    peersCounter := d.counter }

section
variable [NoiseCrypto]

/-- C66: on the heap every sequence of calls on a device does what it does on a list of peers: no call reads or frees
memory that is not allocated, the answers are the same, and no block that existed before is touched. -/
theorem C66_refines {h0 : Heap} (hk : HeapOk h0) (prlg : Bytes) (name : Option Bytes) (sk spriv : B32) (ops : List Op) :
    ∃ dvp h1 h2, create prlg name sk spriv h0 = .ok (dvp, h1) ∧ dvp ≠ 0 ∧
      calls dvp ops h1 = .ok (((fresh name sk spriv).run ops).1, h2) ∧
      ∀ a < h0.next, h2.mem a = h0.mem a := by
  obtain ⟨dvp, h1, e1, hn, r, istr, hr, -⟩ := (Sep.init hk).create prlg name sk spriv
  obtain ⟨h2, e2, s2⟩ := Represents.calls ops (h := h1) (d := fresh name sk spriv) ⟨r, istr, [], hr, rfl⟩
  refine ⟨dvp, h1, h2, e1, hn, e2, fun a ha => ?_⟩
  obtain ⟨_, _, _, s2, -⟩ := s2
  exact s2.sep.below ha

/-- C66, released: `device_free` releases every block of the device exactly once, and no other, except that the
serialisation key and the records, names and keys of the peers stay allocated.

Partial: those blocks should be released as well. -/
theorem C66_free_partial {h0 : Heap} (hk : HeapOk h0) (prlg : Bytes) (name : Option Bytes) (sk spriv : B32)
    (ops : List Op) {dvp : ℕ} {h1 h2 : Heap} {outs : List Out} (e1 : create prlg name sk spriv h0 = .ok (dvp, h1))
    (e2 : calls dvp ops h1 = .ok (outs, h2)) :
    ∃ h3, deviceFree dvp h2 = .ok ((), h3) ∧ (∀ a < h0.next, h3.mem a = h0.mem a) ∧
      ∃ left : List ℕ, left.Nodup ∧ (∀ a, h0.next ≤ a → (h3.mem a ≠ none ↔ a ∈ left)) ∧
        left.length = 1 + peerBlocks ((fresh name sk spriv).run ops).2.peers := by
  obtain ⟨dvp', h1', e1', hn, r, istr, hr, -⟩ := (Sep.init hk).create prlg name sk spriv
  obtain ⟨rfl, rfl⟩ : dvp' = dvp ∧ h1' = h1 := by rw [e1] at e1'; injection e1' with e; injection e with a b; exact ⟨a.symm, b.symm⟩
  obtain ⟨h2', e2', r', istr', ns', s2, -⟩ := Represents.calls ops (h := h1') (d := fresh name sk spriv)
    ⟨r, istr, [], hr, rfl⟩
  obtain rfl : h2' = h2 := by rw [e2] at e2'; injection e2' with e; injection e with a b; exact b.symm
  obtain ⟨h3, e3, s3, _⟩ := s2.deviceFree
  refine ⟨h3, e3, fun a ha => s3.below ha, ?_⟩
  obtain ⟨l, hl, hm, hc⟩ := s3.addresses
  refine ⟨l, hl, hm, ?_⟩
  rw [hc, add_zero, Multiset.card_add, Multiset.card_singleton, card_bodies, s2.peers]

/-- C66, erased: after `device_free` the serialisation key is still in allocated memory that nothing points to, and the
private key was handed back to the allocator as it was. -/
theorem C66_secrets_left_violated {h0 : Heap} (hk : HeapOk h0) (prlg : Bytes) (name : Option Bytes) (sk spriv : B32)
    (ops : List Op) {dvp : ℕ} {h1 h2 h3 : Heap} {outs : List Out} (e1 : create prlg name sk spriv h0 = .ok (dvp, h1))
    (e2 : calls dvp ops h1 = .ok (outs, h2)) (e3 : deviceFree dvp h2 = .ok ((), h3)) :
    (∃ a, h0.next ≤ a ∧ h3.mem a = some (.bytes sk.toList)) ∧ Block.bytes spriv.toList ∈ h3.released := by
  obtain ⟨dvp', h1', e1', hn, r, istr, hr, -⟩ := (Sep.init hk).create prlg name sk spriv
  obtain ⟨rfl, rfl⟩ : dvp' = dvp ∧ h1' = h1 := by rw [e1] at e1'; injection e1' with e; injection e with a b; exact ⟨a.symm, b.symm⟩
  obtain ⟨h2', e2', r', istr', ns', s2, -⟩ := Represents.calls ops (h := h1') (d := fresh name sk spriv)
    ⟨r, istr, [], hr, rfl⟩
  obtain rfl : h2' = h2 := by rw [e2] at e2'; injection e2' with e; injection e with a b; exact b.symm
  obtain ⟨h3', e3', s3, hrel⟩ := s2.deviceFree
  obtain rfl : h3' = h3 := by rw [e3] at e3'; injection e3' with e; injection e with a b; exact b.symm
  obtain ⟨hsk, hsp⟩ := run_keys (fresh name sk spriv) ops
  rw [hsp] at hrel
  refine ⟨⟨r'.sk, ?_⟩, hrel⟩
  have := s3.at_ (r'.sk, .bytes sk.toList) (by rw [hsk]; simp [fresh])
  exact ⟨this.1, this.2.2⟩

/-- C66, numbers: a number is given to one peer only, even if peers are removed; no number is 0. -/
theorem C66_numbers (name : Option Bytes) (sk spriv : B32) (ops : List Op) :
    (addedIds ((fresh name sk spriv).run ops).1).Pairwise (· < ·) ∧
      ∀ i ∈ addedIds ((fresh name sk spriv).run ops).1, 0 < i := by
  obtain ⟨h1, h2⟩ := addedIds_sorted ops (fresh name sk spriv)
  exact ⟨h1, fun i hi => UInt32.lt_of_lt_of_le (by decide : (0 : UInt32) < 1) (h2 i hi)⟩

/-- C66, lists: after any calls no two peers have the same number or the same key. -/
theorem C66_distinct (name : Option Bytes) (sk spriv : B32) (ops : List Op) :
    let d := ((fresh name sk spriv).run ops).2
    (d.peers.map (·.id)).Nodup ∧ (d.peers.map (·.key)).Nodup := by
  intro d
  exact distinct_run ops _ (by simp [Distinct, fresh])

/-- C66, lookup: a peer that was added is found under its number and its key until it is removed. -/
theorem C66_found (d : Dev) (hd : (d.peers.map (·.id)).Nodup ∧ (d.peers.map (·.key)).Nodup) {e : Entry} (he : e ∈ d.peers) :
    d.step (.byId e.id) = (.entry (some e), d) ∧ d.step (.byKey e.key) = (.entry (some e), d) := by
  simp only [Dev.step, Prod.mk.injEq, and_true, Out.entry.injEq]
  exact ⟨find?_nodup (·.id) hd.1 he, find?_nodup (·.key) hd.2 he⟩

/-- C66, sessions: on the lists that the session functions read (C54, C60), creating a device and adding a peer are the
functions of `Model/Noise.lean`. -/
theorem C66_view (prologue : Bytes) (n : UInt32) (name : Option Bytes) (sk spriv : B32) (d : Dev) (key : B32) :
    view prologue 1 (fresh name sk spriv) = deviceCreate prologue spriv ∧
    deviceAddPeer (view prologue n d) key =
      ((addedIds [(d.step (.add name key)).1]).head?, view prologue n (d.step (.add name key)).2) := by
  refine ⟨rfl, ?_⟩
  have hkey : ((d.peers.map fun e => (⟨e.id, e.key⟩ : Peer)).find? fun p => p.s == key).isSome = true ↔
      key ∈ d.peers.map (·.key) := by
    simp [List.find?_isSome]
  simp only [deviceAddPeer, view, Dev.step, Dev.add, hkey]
  split <;> rfl

/-! ### C67: stored secrets -/

/-- C67, device: what `serialize_device_secret` stored, after any calls on the device, opens under the same name and
key on any heap as a device that behaves like one newly made from the same private key. -/
theorem C67_device_round_trip {h0 : Heap} (hk : HeapOk h0) (prlg : Bytes) (name : Option Bytes) (sk spriv : B32)
    (ops : List Op) {nonce rec : Bytes} (hn : nonce.length = 8)
    (hrec : (((fresh name sk spriv).run ops).2.step (.saveDevice nonce)).1 = .record (some rec)) (ops' : List Op) :
    ∃ dvp h1 h2, createFromSecret prlg name sk rec h0 = .ok (dvp, h1) ∧ dvp ≠ 0 ∧
      calls dvp ops' h1 = .ok (((fresh name sk spriv).run ops').1, h2) := by
  obtain ⟨hsk, hsp⟩ := run_keys (fresh name sk spriv) ops
  have hnm := run_name (fresh name sk spriv) ops
  simp only [Dev.step, Out.record.injEq, Option.some.injEq] at hrec
  rw [hsk, hsp, hnm] at hrec
  subst hrec
  obtain ⟨h8, hd, hl⟩ := record_parts sk (text name) spriv hn
  obtain ⟨dvp, h1, e1, hm⟩ := (Sep.init hk).createFromSecret prlg name sk (rec := record sk nonce (text name) spriv) (by omega)
  rw [h8, hd, List.take_of_length_le (by simp [enc_length]), dec_enc] at hm
  obtain ⟨hne, r, istr, hr, -⟩ := hm
  rw [toB32_toList] at hr
  obtain ⟨h2, e2, _⟩ := Represents.calls ops' (h := h1) (d := fresh name sk spriv) ⟨r, istr, [], hr, rfl⟩
  exact ⟨dvp, h1, h2, e1, hne, e2⟩

/-- C67, opened: a record opens exactly if it decrypts under the key with the name as associated data; otherwise the
function returns NULL and nothing stays allocated. -/
theorem C67_device_opens {h0 : Heap} (hk : HeapOk h0) (prlg : Bytes) (name : Option Bytes) (sk : B32) {rec : Bytes}
    (hl : rec.length = 56) :
    ∃ dvp h1, createFromSecret prlg name sk rec h0 = .ok (dvp, h1) ∧
      (dvp ≠ 0 ↔ (aeadDec sk (UInt64.ofNat (leNat (rec.take 8))) (text name) (rec.drop 8)).isSome = true) ∧
      (dvp = 0 → h1.mem = h0.mem) := by
  obtain ⟨dvp, h1, e1, hm⟩ := (Sep.init hk).createFromSecret prlg name sk (rec := rec) (by omega)
  rw [List.take_of_length_le (l := rec.drop 8) (by simp [hl])] at hm
  refine ⟨dvp, h1, e1, ?_⟩
  cases hd : aeadDec sk (UInt64.ofNat (leNat (rec.take 8))) (text name) (rec.drop 8) with
  | none =>
    rw [hd] at hm
    exact ⟨by simp [hm.1], fun _ => funext fun a => hm.2.frame a (by simp)⟩
  | some k =>
    rw [hd] at hm
    exact ⟨by simp [hm.1], fun h => absurd h hm.1⟩

/-- C67, peer: what `serialize_peer_secret` stored for a peer is added again, under the name it was stored with, by a
device with the same serialisation key, unless that device has the key already or ran out of numbers. -/
theorem C67_peer_round_trip (d d' : Dev) (hsk : d'.sk = d.sk) {id : UInt32} {nonce rec : Bytes} (hn : nonce.length = 8)
    (hrec : (d.step (.savePeer id nonce)).1 = .record (some rec)) :
    ∃ e ∈ d.peers, e.id = id ∧ ∀ name, text name = e.name →
      d'.step (.loadPeer name rec) = d'.step (.add name e.key) := by
  simp only [Dev.step, Out.record.injEq, Option.map_eq_some_iff] at hrec
  obtain ⟨e, he, rfl⟩ := hrec
  refine ⟨e, List.mem_of_find?_eq_some he, by simpa using List.find?_some he, fun name hname => ?_⟩
  obtain ⟨h8, hd, hl⟩ := record_parts d.sk e.name e.key hn
  simp only [Dev.step, hl, if_true, h8, hd, hsk, hname, dec_enc, toB32_toList]

/-- C67, kinds: the records of devices and of peers are not told apart. A device's own record is accepted as a peer of
the device's name, whose public key, given out by `peer_get_static`, is the device's private key. -/
theorem C67_device_as_peer_violated {h0 : Heap} (hk : HeapOk h0) (prlg : Bytes) (name : Option Bytes) (sk spriv : B32)
    {nonce : Bytes} (hn : nonce.length = 8) :
    ∃ rec dvp h1 h2, create prlg name sk spriv h0 = .ok (dvp, h1) ∧
      calls dvp [.saveDevice nonce, .loadPeer name rec, .byId 1] h1 =
        .ok ([.record (some rec), .added (some 1), .entry (some ⟨1, text name, spriv⟩)], h2) := by
  obtain ⟨dvp, h1, h2, e1, _, e2, _⟩ := C66_refines hk prlg name sk spriv
    [.saveDevice nonce, .loadPeer name (record sk nonce (text name) spriv), .byId 1]
  obtain ⟨h8, hd, hl⟩ := record_parts sk (text name) spriv hn
  refine ⟨record sk nonce (text name) spriv, dvp, h1, h2, e1, ?_⟩
  rw [e2]
  simp only [Dev.run, Dev.step, fresh, hl, if_true, h8, hd, dec_enc, toB32_toList, Dev.add]
  simp

/-- C67, kinds: a peer's record opens as a device of the peer's name, whose private key is then the peer's public key. -/
theorem C67_peer_as_device_violated {h0 : Heap} (hk : HeapOk h0) (prlg : Bytes) (d : Dev) {id : UInt32}
    {nonce rec : Bytes} (hn : nonce.length = 8) (hrec : (d.step (.savePeer id nonce)).1 = .record (some rec))
    (ops : List Op) :
    ∃ e ∈ d.peers, e.id = id ∧ ∀ name, text name = e.name →
      ∃ dvp h1 h2, createFromSecret prlg name d.sk rec h0 = .ok (dvp, h1) ∧ dvp ≠ 0 ∧
        calls dvp ops h1 = .ok (((fresh name d.sk e.key).run ops).1, h2) := by
  simp only [Dev.step, Out.record.injEq, Option.map_eq_some_iff] at hrec
  obtain ⟨e, he, rfl⟩ := hrec
  refine ⟨e, List.mem_of_find?_eq_some he, by simpa using List.find?_some he, fun name hname => ?_⟩
  exact C67_device_round_trip hk prlg name d.sk e.key [] hn (by simp [Dev.run, Dev.step, fresh, hname]) ops

/-- C67, length: `device_create_from_secret` has no length argument; a record that is cut off is read past its end. -/
theorem C67_short_violated (h0 : Heap) (prlg : Bytes) (name : Option Bytes) (sk : B32) {rec : Bytes}
    (hl : rec.length < 56) : createFromSecret prlg name sk rec h0 = .ub .oob := by
  unfold createFromSecret
  rw [run_bind]
  simp only [alloc, C.ok_bind, if_pos hl]
  rfl

end

/-! ### Examples -/

section examples

attribute [local instance] Toy.noise

private def heap0 : Heap := ⟨fun _ => none, 1, []⟩
private def key (n : UInt8) : B32 := Vector.replicate 32 n
private def bob : Option Bytes := some [98, 111, 98, 0, 120]
private def script : List Op :=
  [.add bob (key 5), .add none (key 6), .add bob (key 5), .remove 1, .byId 2, .byId 1, .add none (key 5), .byKey (key 5)]

example : HeapOk heap0 := ⟨by decide, fun _ _ => rfl⟩

/-- The answers: a second peer with the same key is refused, and number 1 is not given out again. -/
example : ((fresh bob (key 1) (key 2)).run script).1 =
    [.added (some 1), .added (some 2), .added none, .unit, .entry (some ⟨2, [], key 6⟩), .entry none, .added (some 3),
     .entry (some ⟨3, [], key 5⟩)] := by decide +kernel

/-- On the heap, with the release: 7 blocks stay of a device with two peers without names. -/
example : ∃ dvp h1 h2 h3 outs, ∃ left : List ℕ, create [1] bob (key 1) (key 2) heap0 = .ok (dvp, h1) ∧
    calls dvp script h1 = .ok (outs, h2) ∧ deviceFree dvp h2 = .ok ((), h3) ∧ left.Nodup ∧
    (∀ a, heap0.next ≤ a → (h3.mem a ≠ none ↔ a ∈ left)) ∧ left.length = 7 := by
  obtain ⟨dvp, h1, h2, e1, _, e2, _⟩ := C66_refines (h0 := heap0) ⟨by decide, fun _ _ => rfl⟩ [1] bob (key 1) (key 2) script
  obtain ⟨h3, e3, _, left, hn, hm, hl⟩ := C66_free_partial (h0 := heap0) ⟨by decide, fun _ _ => rfl⟩ [1] bob (key 1) (key 2)
    script e1 e2
  exact ⟨dvp, h1, h2, h3, _, left, e1, e2, e3, hn, hm, hl.trans (by decide +kernel)⟩

/-- The distinct numbers and keys of two peers. -/
example : ((⟨[], key 1, key 2, [⟨2, [], key 6⟩, ⟨1, [7], key 5⟩], 3⟩ : Dev).peers.map (·.id)).Nodup ∧
    ((⟨[], key 1, key 2, [⟨2, [], key 6⟩, ⟨1, [7], key 5⟩], 3⟩ : Dev).peers.map (·.key)).Nodup := by decide +kernel

/-- A stored peer. -/
example : ((⟨[], key 1, key 2, [⟨2, [], key 6⟩, ⟨1, [7], key 5⟩], 3⟩ : Dev).step (.savePeer 1 [1, 2, 3, 4, 5, 6, 7, 8])).1 =
    .record (some (record (key 1) [1, 2, 3, 4, 5, 6, 7, 8] [7] (key 5))) := by decide +kernel

end examples

end Verif.Props
