import Verif.Props.Noise
import Verif.Proofs.Device
import Verif.Spec.PyNoise

/-!
# Lemmas about the Python wrapper of the Noise library
-/

set_option linter.unusedSectionVars false

namespace Verif.PyNoise

open Py Noise NoiseCrypto
open Spec.PyLink
open Spec.NoiseXK (Net other)

theorem andThen_some {α β : Type} (a : α) (f : α → C (Option β)) : andThen (.ok (some a)) f = f a := rfl
theorem andThen_none {α β : Type} (f : α → C (Option β)) : andThen (.ok none) f = .ok none := rfl
theorem andThen_ub {α β : Type} (r) (f : α → C (Option β)) : andThen (.ub r) f = .ub r := rfl
theorem andThen_ret {α β : Type} (a : α) (f : α → C (Option β)) : andThen (ret a) f = f a := rfl
theorem andThen_conv {α β : Type} (a : α) (f : α → C (Option β)) : andThen (conv (some a)) f = f a := rfl
theorem andThen_cc {α β : Type} (a : α) (f : α → C (Option β)) : andThen (cc (.ok a)) f = f a := rfl

theorem b32At_vec (k : B32) : b32At (k.toList ++ [0]) 0 = .ok k := by
  unfold b32At
  rw [rd_ok (by simp)]
  simp only [C.ok_bind, List.drop_zero]
  rw [List.take_append_of_le_length (by simp), List.take_of_length_le (by simp), toB32_toList]

theorem textArg_some {v : Val} (h : TextArg (some v)) : ∃ len p, v.len = some len ∧ v.ptr = some p ∧ 0 ∈ p ∧ len ≤ p.length := by
  cases v <;> simp only [TextArg] at h
  · exact ⟨_, _, rfl, rfl, by simp, by simp⟩
  · rename_i s
    refine ⟨_, _, rfl, rfl, by simp, ?_⟩
    have : (s.flatMap wchar).length = 4 * s.length := by
      induction s with
      | nil => rfl
      | cons c s ih => rw [List.flatMap_cons, List.length_append, ih]; simp [wchar]; omega
    rw [List.length_append, this]
    omega

theorem namep_ok {n : Option Val} (h : TextArg n) : ∃ p, namep n = some p ∧ readName p = .ok () := by
  cases n with
  | none => exact ⟨none, rfl, rfl⟩
  | some v =>
    obtain ⟨len, p, _, h2, h3, _⟩ := textArg_some h
    exact ⟨some p, by simp [namep, h2], by simp [readName, h3]⟩

theorem textArg_getD {n : Option Val} (h : TextArg n) {b : Bytes} : TextArg (some (n.getD (.bytes b))) := by
  cases n with
  | none => trivial
  | some v => exact h

section
variable [Hashes] [NoiseCrypto]

theorem pubkey_ok (k : B32) : pubkey (.bytes k.toList) = .ok (some (xbase k)) := by
  simp only [pubkey, Val.ptr, andThen_conv, b32At_vec, andThen_cc]
  rfl

/-- The prologue that the C code sees. -/
def prologueOf (v : Val) : Bytes := ((v.ptr.getD []).take ((v.len.getD 0) % 4294967296))

theorem createDevice_ok {dst : Val} (hd : TextArg (some dst)) {name : Option Val} (hn : TextArg name) (k : B32) :
    createDevice dst name (.bytes k.toList) = .ok (some (deviceCreate (prologueOf dst) k)) := by
  obtain ⟨len, p, h1, h2, h3, h4⟩ := textArg_some hd
  obtain ⟨nm, h5, h6⟩ := namep_ok hn
  have hl : len % 4294967296 ≤ len := Nat.mod_le _ _
  unfold createDevice
  rw [h1, h2, h5]
  simp only [Val.ptr, andThen_conv, b32At_vec, andThen_cc]
  rw [rd_ok (by omega), andThen_cc, h6, andThen_cc]
  simp [prologueOf, h1, h2, ret]

theorem addPeer_ok (dv : Device) {name : Option Val} (hn : TextArg name) (k : B32) :
    addPeer dv name (.bytes k.toList) = .ok (some (deviceAddPeer dv k)) := by
  obtain ⟨nm, h5, h6⟩ := namep_ok hn
  unfold addPeer
  simp only [h5, charp, andThen_conv, b32At_vec, andThen_cc, h6]
  rfl

/-- The numbers and keys of the list are those that `add_peer` gives. -/
def ListOk (dv : Device) : Prop :=
  (∀ p ∈ dv.peers, 0 < p.id ∧ p.id < dv.peersCounter) ∧ 0 < dv.peersCounter ∧
    (dv.peers.map (·.s)).Nodup ∧ (dv.peers.map (·.id)).Nodup

theorem deviceAddPeer_keeps (dv : Device) (k : B32) :
    let d := (deviceAddPeer dv k).2
    d.spriv = dv.spriv ∧ d.spub = dv.spub ∧ d.prologue = dv.prologue ∧ d.statesCounter = dv.statesCounter := by
  intro d
  simp only [d, deviceAddPeer]
  split <;> exact ⟨rfl, rfl, rfl, rfl⟩

theorem deviceAddPeer_mem {dv : Device} (hc : dv.peersCounter.toNat < 4294967295) (k : B32) :
    let d := (deviceAddPeer dv k).2
    k ∈ d.peers.map (·.s) ∧ (∀ p ∈ dv.peers, p ∈ d.peers) ∧ d.peersCounter.toNat ≤ dv.peersCounter.toNat + 1 := by
  intro d
  have hne : dv.peersCounter ≠ 4294967295 := by rintro h; rw [h] at hc; revert hc; decide
  simp only [d, deviceAddPeer]
  split
  · rename_i h
    have h := h.resolve_left hne
    rw [List.find?_isSome] at h
    obtain ⟨p, hp, hs⟩ := h
    exact ⟨List.mem_map.mpr ⟨p, hp, by simpa using hs⟩, fun _ h => h, Nat.le_succ _⟩
  · refine ⟨by simp, fun p hp => List.mem_cons_of_mem _ hp, ?_⟩
    simp only [UInt32.toNat_add, UInt32.reduceToNat]
    omega

theorem addPeers_ok (ks : List (B32 × Option Val)) (hn : ∀ k ∈ ks, TextArg k.2) (dv : Device) (hl : ListOk dv)
    (hc : dv.peersCounter.toNat + ks.length < 4294967296) :
    ∃ d, addPeers dv (ks.map fun k => (.bytes k.1.toList, k.2)) = .ok (some d) ∧ ListOk d ∧ d.spriv = dv.spriv ∧
      d.spub = dv.spub ∧ d.prologue = dv.prologue ∧ d.statesCounter = dv.statesCounter ∧
      (∀ p ∈ dv.peers, p ∈ d.peers) ∧ ∀ k ∈ ks, k.1 ∈ d.peers.map (·.s) := by
  induction ks generalizing dv with
  | nil => exact ⟨dv, rfl, hl, rfl, rfl, rfl, rfl, fun _ h => h, by simp⟩
  | cons k ks ih =>
    rw [List.length_cons] at hc
    obtain ⟨a1, a2, a3⟩ := deviceAddPeer_mem (dv := dv) (by omega) k.1
    obtain ⟨b1, b2, b3, b4⟩ := deviceAddPeer_keeps dv k.1
    have hl' := (Props.C60_add_peer hl.1 hl.2.1 hl.2.2 k.1).2
    obtain ⟨d, h1, h2, h3, h4, h5, h6, h7, h8⟩ := ih (fun k hk => hn k (List.mem_cons_of_mem _ hk)) (deviceAddPeer dv k.1).2
      hl' (by omega)
    refine ⟨d, ?_, h2, h3.trans b1, h4.trans b2, h5.trans b3, h6.trans b4, fun p hp => h7 p (a2 p hp), ?_⟩
    · rw [List.map_cons, addPeers, addPeer_ok dv (hn k List.mem_cons_self), andThen_some, h1]
    · rintro k' hk'
      rcases List.mem_cons.mp hk' with rfl | hk'
      · obtain ⟨p, hp, hs⟩ := List.mem_map.mp a1
        exact List.mem_map.mpr ⟨p, h7 p hp, hs⟩
      · exact h8 k' hk'

theorem sendMsg_bytes (s : Option PySession) {v : Val} {b : Bytes} (hv : content v = some b) (hb : b.length < 4294967296) :
    sendMsg s v = write (pack 5 b) s := by
  have key : ∀ b : Bytes, b.length < 4294967296 → rd (b ++ [0]) 0 (b.length % 4294967296) = .ok b := by
    intro b hb
    rw [Nat.mod_eq_of_lt hb, rd_ok (by simp)]
    simp
  cases v with
  | bytes b' =>
    obtain rfl : b' = b := by simpa [content] using hv
    simp only [sendMsg, encodeStr, Val.len, Val.ptr, key _ hb, C.ok_bind]
  | str s' =>
    have hu : utf8 s' = some b := hv
    simp only [sendMsg, encodeStr, hu, Option.map_some, Val.len, Val.ptr, key _ hb, C.ok_bind]
  | array _ => simp [content] at hv
  | bytearray _ => simp [content] at hv
  | other _ => simp [content] at hv

theorem read_short (auth : ℕ) {msg : Bytes} (h : msg.length < 4294967296) (s : PySession) :
    read auth msg (some s) =
      match sessionRead s.peers s.sn msg with
      | (.success, some em, sn') => .ok (unpack auth em, some { s with sn := sn' })
      | (_, _, sn') => .ok (none, some { s with sn := sn' }) := by
  simp only [read, Nat.mod_eq_of_lt h, List.take_length]
  rfl

/-! ### The link and the network of sessions -/

structure Sim (l : Link) (net : Net) : Prop where
  side : ∀ w, ∃ s, l.side w = some s ∧ s.sn = net.sess w
  wire : l.wire = net.wire
  sent : l.sent = net.sent
  got : l.got = net.got
  raised : l.raised = net.refused
  trans : ∀ w, ∃ t, (net.sess w).st = .transport t
  short : ∀ w, ∀ c ∈ net.wire w, c.length < 4294967296

/-- The event of the network for an event of the link. -/
def evOf : Spec.PyLink.Ev → Spec.NoiseXK.Ev
  | .send w v => .send w (pack 5 ((content v).getD []))
  | .deliver w => .deliver w

/-- Messages that are sent have a content of less than 2³² bytes. -/
def EvOk : Spec.PyLink.Ev → Prop
  | .send _ v => ∃ b, content v = some b ∧ b.length < 4294967296
  | .deliver _ => True

theorem read_transport_cases (peers peers' : List Peer) (input : Bytes) {sn : Session} {t : TS} (h : sn.st = .transport t) :
    (∃ p t' sn', sessionRead peers sn input = (.success, some ⟨.auth 2, p⟩, sn') ∧ sn'.st = .transport t' ∧
      sessionRead peers' sn input = (.success, some ⟨.auth 2, p⟩, sn')) ∨
    ∃ e, sessionRead peers sn input = (.error e, none, sn) ∧ sessionRead peers' sn input = (.error e, none, sn) := by
  obtain ⟨r, pid, st⟩ := sn
  simp only at h
  subst h
  unfold sessionRead transportRead
  dsimp only
  by_cases h1 : input.length ≥ 16
  · simp only [h1, if_true]
    by_cases h2 : ¬ (input.length - 16 ≤ 4294967279 ∧ input.length = input.length - 16 + 16)
    · simp only [h2, if_true, not_false_eq_true]; exact .inr ⟨_, rfl, rfl⟩
    · simp only [h2, if_false]
      by_cases h3 : t.recvNonce ≥ 18446744073709551615
      · simp only [h3, if_true]; exact .inr ⟨_, rfl, rfl⟩
      · simp only [h3, if_false]
        cases aeadDec t.recvKey t.recvNonce [] input with
        | none => exact .inr ⟨_, rfl, rfl⟩
        | some p => exact .inl ⟨p, _, _, rfl, rfl, rfl⟩
  · simp only [h1, if_false]; exact .inr ⟨_, rfl, rfl⟩

theorem sim_step (peers : List Peer) {l : Link} {net : Net} (hs : Sim l net) {e : Spec.PyLink.Ev} (he : EvOk e) :
    ∃ l', l.step e = .ok l' ∧ Sim l' (net.step peers (evOf e)) := by
  cases e with
  | send w v =>
    obtain ⟨b, hb, hlen⟩ := he
    obtain ⟨s, h1, h2⟩ := hs.side w
    obtain ⟨t, ht⟩ := hs.trans w
    simp only [Link.step, Net.step, evOf, hb, Option.getD_some]
    rw [h1, sendMsg_bytes _ hb hlen]
    simp only [write, h2]
    generalize hsn : net.sess w = sn at ht
    obtain ⟨r, pid, st⟩ := sn
    simp only at ht
    subst ht
    rcases write_transport (pack 5 b) r pid t with ⟨hw, hl, _⟩ | ⟨e, hw⟩
    · simp only [hw, C.ok_bind]
      refine ⟨_, rfl, ?_⟩
      constructor
      · intro w'
        by_cases hww : w' = w
        · subst hww; exact ⟨_, Function.update_self _ _ _, by simp⟩
        · obtain ⟨s', h3, h4⟩ := hs.side w'
          exact ⟨s', by simp [Function.update_of_ne hww, h3], by simp [Function.update_of_ne hww, h4]⟩
      · simp only [hs.wire]
      · simp only [hs.sent]; rfl
      · exact hs.got
      · exact hs.raised
      · intro w'
        by_cases hww : w' = w
        · subst hww; exact ⟨_, by simp; rfl⟩
        · obtain ⟨t', h3⟩ := hs.trans w'
          exact ⟨t', by simp [Function.update_of_ne hww, h3]⟩
      · intro w'
        by_cases hww : w' = w
        · subst hww
          simp only [Function.update_self, List.mem_append, List.mem_singleton]
          rintro c (hc | rfl)
          · exact hs.short _ c hc
          · rw [enc_length]
            omega
        · simp only [Function.update_of_ne hww]; exact hs.short w'
    · simp only [hw, C.ok_bind]
      refine ⟨_, rfl, ?_⟩
      constructor
      · intro w'
        by_cases hww : w' = w
        · subst hww; exact ⟨_, Function.update_self _ _ _, by simp⟩
        · obtain ⟨s', h3, h4⟩ := hs.side w'
          exact ⟨s', by simp [Function.update_of_ne hww, h3], by simp [Function.update_of_ne hww, h4]⟩
      · exact hs.wire
      · exact hs.sent
      · exact hs.got
      · exact hs.raised
      · intro w'
        by_cases hww : w' = w
        · subst hww; exact ⟨t, by simp⟩
        · obtain ⟨t', h3⟩ := hs.trans w'
          exact ⟨t', by simp [Function.update_of_ne hww, h3]⟩
      · exact hs.short
  | deliver w =>
    simp only [Link.step, Net.step, evOf, hs.wire]
    cases hw : net.wire w with
    | nil => exact ⟨l, rfl, hs⟩
    | cons c rest =>
      obtain ⟨s, h1, h2⟩ := hs.side (other w)
      obtain ⟨t, ht⟩ := hs.trans (other w)
      have hc : c.length < 4294967296 := hs.short w c (by simp [hw])
      have hrest : ∀ w', ∀ x ∈ Function.update net.wire w rest w', x.length < 4294967296 := by
        intro w' x hx
        by_cases hww : w' = w
        · subst hww; rw [Function.update_self] at hx; exact hs.short _ x (by rw [hw]; exact List.mem_cons_of_mem _ hx)
        · rw [Function.update_of_ne hww] at hx; exact hs.short _ x hx
      simp only [h1, readMsg, read_short _ hc, h2]
      rcases read_transport_cases s.peers peers c ht with ⟨p, t', sn', hr, ht', hr'⟩ | ⟨e, hr, hr'⟩
      · simp only [hr, hr', C.ok_bind, unpack]
        have hu : (if (if p.length = 0 then true else decide (2 ≥ 2)) = true then some p else none) = some p := by simp
        simp only [hu]
        refine ⟨_, rfl, ?_⟩
        constructor
        · intro w'
          by_cases hww : w' = other w
          · subst hww; exact ⟨_, Function.update_self _ _ _, by simp⟩
          · obtain ⟨s', h3, h4⟩ := hs.side w'
            exact ⟨s', by simp [Function.update_of_ne hww, h3], by simp [Function.update_of_ne hww, h4]⟩
        · rfl
        · exact hs.sent
        · simp only [hs.got]
        · exact hs.raised
        · intro w'
          by_cases hww : w' = other w
          · subst hww; exact ⟨t', by simp [ht']⟩
          · obtain ⟨t', h3⟩ := hs.trans w'
            exact ⟨t', by simp [Function.update_of_ne hww, h3]⟩
        · exact hrest
      · simp only [hr, hr', C.ok_bind]
        refine ⟨_, rfl, ?_⟩
        constructor
        · intro w'
          by_cases hww : w' = other w
          · subst hww; exact ⟨_, Function.update_self _ _ _, by simp⟩
          · obtain ⟨s', h3, h4⟩ := hs.side w'
            exact ⟨s', by simp [Function.update_of_ne hww, h3], by simp [Function.update_of_ne hww, h4]⟩
        · rfl
        · exact hs.sent
        · exact hs.got
        · rfl
        · intro w'
          by_cases hww : w' = other w
          · subst hww; exact ⟨t, by simp [ht]⟩
          · obtain ⟨t', h3⟩ := hs.trans w'
            exact ⟨t', by simp [Function.update_of_ne hww, h3]⟩
        · exact hrest

theorem sim_run (peers : List Peer) (es : List Spec.PyLink.Ev) {l : Link} {net : Net} (hs : Sim l net)
    (he : ∀ e ∈ es, EvOk e) : ∃ l', l.run es = .ok l' ∧ Sim l' (net.run peers (es.map evOf)) := by
  induction es generalizing l net with
  | nil => exact ⟨l, rfl, hs⟩
  | cons e es ih =>
    obtain ⟨l1, h1, hs1⟩ := sim_step peers hs (he e List.mem_cons_self)
    obtain ⟨l2, h2, hs2⟩ := ih hs1 fun e h => he e (List.mem_cons_of_mem _ h)
    exact ⟨l2, by simp only [Link.run, h1, C.ok_bind, h2], hs2⟩

end

end Verif.PyNoise
