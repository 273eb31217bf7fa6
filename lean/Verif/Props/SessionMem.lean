import Verif.Proofs.SessionRun
import Verif.Props.Device

/-!
# Property of the sessions on the heap: C78
-/

set_option linter.unusedSectionVars false

namespace Verif.Props

open Noise Noise.Mem NoiseCrypto
open Spec.Device Spec.SessionMem

section
variable [Hashes] [NoiseCrypto]

/-- A new device without sessions is represented by the heap. -/
private theorem start {h0 : Heap} (hk : HeapOk h0) (prlg : Bytes) (name : Option Bytes) (sk spriv : B32) :
    ∃ dvp h1, create prlg name sk spriv h0 = .ok (dvp, h1) ∧ dvp ≠ 0 ∧
      WRep h0 h1 0 dvp (World.new prlg name sk spriv) [] [] := by
  obtain ⟨dvp, h1, e1, hn, r, istr, hr, hs⟩ := (Sep.init hk).create prlg name sk spriv
  exact ⟨dvp, h1, e1, hn, rfl, rfl, by simp, r, istr, [], by rw [add_zero]; exact hr, hs⟩

/-- C78: on the heap every program that opens, uses, inspects and closes sessions of a device, in any order and with any
bytes from outside, does what it does on plain values: no call reads, writes or frees memory that is not allocated, all
answers are the same, and no block that existed before is touched. -/
theorem C78_refines {h0 : Heap} (hk : HeapOk h0) (prlg : Bytes) (name : Option Bytes) (sk spriv : B32)
    (ops : List Spec.SessionMem.Op) :
    ∃ dvp h1 ps h2, create prlg name sk spriv h0 = .ok (dvp, h1) ∧ dvp ≠ 0 ∧
      runAt dvp [] ops h1 = .ok ((((World.new prlg name sk spriv).run ops).1, ps), h2) ∧
      ∀ a < h0.next, h2.mem a = h0.mem a := by
  obtain ⟨dvp, h1, e1, hn, s1⟩ := start hk prlg name sk spriv
  obtain ⟨ps, h2, zs, e2, s2⟩ := s1.run ops
  obtain ⟨_, _, _, hr, -⟩ := s2.rep
  exact ⟨dvp, h1, ps, h2, e1, hn, e2, fun a ha => hr.sep.below ha⟩

/-- C78, restored: the same holds for a device that was opened from a stored record. -/
theorem C78_restored {h0 : Heap} (hk : HeapOk h0) (prlg : Bytes) (name : Option Bytes) (sk : B32) {rec key : Bytes}
    (hl : rec.length = 56)
    (hd : aeadDec sk (UInt64.ofNat (leNat (rec.take 8))) (text name) (rec.drop 8) = some key) (ops : List Spec.SessionMem.Op) :
    ∃ dvp h1 ps h2, createFromSecret prlg name sk rec h0 = .ok (dvp, h1) ∧ dvp ≠ 0 ∧
      runAt dvp [] ops h1 = .ok ((((World.new prlg name sk (toB32 key)).run ops).1, ps), h2) ∧
      ∀ a < h0.next, h2.mem a = h0.mem a := by
  obtain ⟨dvp, h1, e1, hm⟩ := (Sep.init hk).createFromSecret prlg name sk (rec := rec) (by omega)
  rw [List.take_of_length_le (l := rec.drop 8) (by simp [hl]), hd] at hm
  obtain ⟨hn, r, istr, hr, hs⟩ := hm
  have s1 : WRep h0 h1 0 dvp (World.new prlg name sk (toB32 key)) [] [] := ⟨rfl, rfl, by simp, r, istr, [], by rw [add_zero]; exact hr, hs⟩
  obtain ⟨ps, h2, zs, e2, s2⟩ := s1.run ops
  obtain ⟨_, _, _, hr, -⟩ := s2.rep
  exact ⟨dvp, h1, ps, h2, e1, hn, e2, fun a ha => hr.sep.below ha⟩

/-- C78, released: once every session is closed, nothing of the sessions is left; `device_free` then leaves exactly what
it leaves of a device that never had a session (C66). -/
theorem C78_released {h0 : Heap} (hk : HeapOk h0) (prlg : Bytes) (name : Option Bytes) (sk spriv : B32)
    (ops : List Spec.SessionMem.Op) (hclosed : ∀ o ∈ ((World.new prlg name sk spriv).run ops).2.sns, o = none)
    {dvp : ℕ} {h1 h2 : Heap} {res : List Spec.SessionMem.Out × List ℕ} (e1 : create prlg name sk spriv h0 = .ok (dvp, h1))
    (e2 : runAt dvp [] ops h1 = .ok (res, h2)) :
    (∃ left : List ℕ, left.Nodup ∧ (∀ a, h0.next ≤ a → (h2.mem a ≠ none ↔ a ∈ left)) ∧
      left.length = 6 + (if text name = [] then 0 else 1) + (if prlg = [] then 0 else 1) +
        ((World.new prlg name sk spriv).run ops).2.d.peers.length +
        peerBlocks ((World.new prlg name sk spriv).run ops).2.d.peers) ∧
    ∃ h3, deviceFree dvp h2 = .ok ((), h3) ∧ (∀ a < h0.next, h3.mem a = h0.mem a) ∧
      ∃ left : List ℕ, left.Nodup ∧ (∀ a, h0.next ≤ a → (h3.mem a ≠ none ↔ a ∈ left)) ∧
        left.length = 1 + peerBlocks ((World.new prlg name sk spriv).run ops).2.d.peers := by
  obtain ⟨dvp', h1', e1', hn, s1⟩ := start hk prlg name sk spriv
  obtain ⟨rfl, rfl⟩ : dvp' = dvp ∧ h1' = h1 := by
    rw [e1] at e1'; injection e1' with e; injection e with a b; exact ⟨a.symm, b.symm⟩
  obtain ⟨ps, h2', zs, e2', s2⟩ := s1.run ops
  obtain rfl : h2' = h2 := by rw [e2] at e2'; injection e2' with e; injection e with a b; exact b.symm
  obtain ⟨r, istr, ns, hr, -⟩ := s2.rep
  have hz : allB zs = 0 := by
    refine allB_none fun o ho => ?_
    have := hclosed (o.map Prod.snd) (by rw [s2.sns]; exact List.mem_map_of_mem ho)
    simpa using this
  have hnm : ((World.new prlg name sk spriv).run ops).2.d.name = text name ∧
      ((World.new prlg name sk spriv).run ops).2.prologue = prlg := by
    obtain ⟨g1, -, g3⟩ := World.run_const ops (World.new prlg name sk spriv)
    exact ⟨g1, g3⟩
  rw [hz, add_zero] at hr
  refine ⟨?_, ?_⟩
  · obtain ⟨l, hl, hm, hc⟩ := hr.sep.addresses
    refine ⟨l, hl, hm, ?_⟩
    rw [hc, hnm.2]
    simp only [devBlocks, strBlock, prlgBlock, hnm.1, Multiset.card_add, card_cells, card_bodies, hr.peers, List.length_map]
    split <;> split <;> simp only [Multiset.card_zero, Multiset.card_singleton] <;> omega
  · obtain ⟨h3, e3, s3, _⟩ := hr.deviceFree
    refine ⟨h3, e3, fun a ha => s3.below ha, ?_⟩
    obtain ⟨l, hl, hm, hc⟩ := s3.addresses
    refine ⟨l, hl, hm, ?_⟩
    rw [hc, add_zero, Multiset.card_add, Multiset.card_singleton, card_bodies, hr.peers]

/-- C78, numbers: no two sessions that are open at the same time have the same number, and later ones have larger
numbers. -/
theorem C78_numbers (prlg : Bytes) (name : Option Bytes) (sk spriv : B32) (ops : List Spec.SessionMem.Op) {i j : ℕ}
    {x y : Sn} (hx : ((World.new prlg name sk spriv).run ops).2.sn i = some x)
    (hy : ((World.new prlg name sk spriv).run ops).2.sn j = some y) (hij : i < j) : x.id < y.id := by
  have h := NumsOk.run ops (w := World.new prlg name sk spriv) ⟨by simp [World.new], by simp [World.new]⟩
  unfold World.sn at hx hy
  rw [Option.join_eq_some_iff] at hx hy
  obtain ⟨hi, hx⟩ := List.getElem?_eq_some_iff.mp hx
  obtain ⟨hj, hy⟩ := List.getElem?_eq_some_iff.mp hy
  exact List.pairwise_iff_getElem.mp h.2 i j hi hj hij x y hx hy

/-- C78, erased: closing a session hands everything in it back to the allocator as it is: the device's private key, the
ephemeral private key and the chaining key of a handshake, and both keys of an established session. -/
theorem C78_secrets_violated {h0 : Heap} (hk : HeapOk h0) (prlg : Bytes) (name : Option Bytes) (sk spriv : B32)
    (ops : List Spec.SessionMem.Op) {i : ℕ} {x : Sn} (hx : ((World.new prlg name sk spriv).run ops).2.sn i = some x) :
    ∃ dvp h1 res h2, create prlg name sk spriv h0 = .ok (dvp, h1) ∧
      runAt dvp [] (ops ++ [.close i]) h1 = .ok (res, h2) ∧ Block.bytes spriv.toList ∈ h2.released ∧
      match x.s.st with
      | .handshake s => Block.bytes s.epriv.toList ∈ h2.released ∧ Block.bytes s.ck.toList ∈ h2.released
      | .transport t => Block.bytes t.sendKey.toList ∈ h2.released ∧ Block.bytes t.recvKey.toList ∈ h2.released := by
  obtain ⟨dvp, h1, e1, hn, s1⟩ := start hk prlg name sk spriv
  obtain ⟨ps, h2, zs, e2, s2⟩ := s1.run ops
  obtain ⟨h3, z, e3, rfl, hok, hrel⟩ := s2.close hx
  obtain ⟨-, hsp, -⟩ := World.run_const ops (World.new prlg name sk spriv)
  have hspriv : z.1.spriv = spriv := hok.spriv.trans hsp
  refine ⟨dvp, h1, _, h3, e1, runAt_snoc ops (.close i) e2 e3, ?_⟩
  have hst := hok.st
  unfold StOk at hst
  revert hst
  cases hr : z.1.r.st with
  | handshake p =>
    cases hs : z.2.s.st with
    | transport t => exact fun h => h.elim
    | handshake s =>
      rintro ⟨-, -, -, g4, -, -⟩
      refine ⟨?_, ?_, ?_⟩
      · rw [← hspriv, ← g4]
        exact hrel p.spriv _ (by simp [snB, core, stBlocks, hr, hs, hsBlocks])
      · exact hrel p.epriv _ (by simp [snB, core, stBlocks, hr, hs, hsBlocks])
      · exact hrel p.ck _ (by simp [snB, core, stBlocks, hr, hs, hsBlocks])
  | transport q =>
    cases hs : z.2.s.st with
    | handshake s => exact fun h => h.elim
    | transport t =>
      rintro -
      refine ⟨?_, ?_, ?_⟩
      · rw [← hspriv]
        exact hrel z.1.r.spriv _ (by simp [snB, core, stBlocks, hr, hs, tsBlocks])
      · exact hrel q.sendKey _ (by simp [snB, core, stBlocks, hr, hs, tsBlocks])
      · exact hrel q.recvKey _ (by simp [snB, core, stBlocks, hr, hs, tsBlocks])

end

/-! ### Examples -/

section examples

attribute [local instance] Toy.hashes Toy.noise

private def heap1 : Heap := ⟨fun _ => none, 1, []⟩
private def k32 (n : UInt8) : B32 := Vector.replicate 32 n
private def alice : Option Bytes := some [97]
private def bobN : Option Bytes := some [98, 111, 98]
private def wA : World := World.new [1, 2] alice (k32 1) (k32 2)
private def wB : World := World.new [1, 2] bobN (k32 3) (k32 4)

/-- The message of the last answer. -/
private def lastMsg (r : List Spec.SessionMem.Out × World) : Bytes :=
  match r.1.getLast? with
  | some (.sent _ (some m)) => m
  | _ => []

/-- Alice opens a session with Bob; both run the handshake, and Alice sends three bytes. -/
private def a1 : List Spec.SessionMem.Op := [.dev (.add bobN (NoiseCrypto.xbase (k32 4))), .openTo 1 (k32 5), .send 0 0 []]
private def b1 : List Spec.SessionMem.Op :=
  [.dev (.add alice (NoiseCrypto.xbase (k32 2))), .accept (k32 6), .recv 0 0 (lastMsg (wA.run a1)), .send 0 0 []]
private def a2 : List Spec.SessionMem.Op := a1 ++ [.recv 0 0 (lastMsg (wB.run b1)), .send 0 0 []]
private def a3 : List Spec.SessionMem.Op := a2 ++ [.send 0 5 [7, 8, 9]]
private def b2 : List Spec.SessionMem.Op := b1 ++ [.recv 0 0 (lastMsg (wA.run a2)), .recv 0 2 (lastMsg (wA.run a3)), .inspect 0]

/-- Bob receives the bytes, with Alice's name and number. -/
example : ((wB.run b2).1.drop 5).map (fun o => match o with
      | .received rc m => some (rc.isSuccess, m)
      | .info i => some (i.max, i.peer)
      | _ => none) = [some (true, some [7, 8, 9]), some (true, some [97])] ∧
    (wB.run b2).2.sns.map (Option.map fun x => (x.id, x.s.pid)) = [some (1, 1)] := by decide +kernel

/-- Every session is closed at the end. -/
example : ∀ o ∈ ((World.new [1, 2] bobN (k32 3) (k32 4)).run (b2 ++ [.close 0])).2.sns, o = none := by
  have : ((World.new [1, 2] bobN (k32 3) (k32 4)).run (b2 ++ [.close 0])).2.sns.all Option.isNone = true := by decide +kernel
  simpa using this

/-- Two sessions are open, the first one established. -/
example : ((wB.run (b2 ++ [.accept (k32 7)])).2.sn 0).isSome = true ∧ ((wB.run (b2 ++ [.accept (k32 7)])).2.sn 1).isSome = true ∧
    (((wB.run (b2 ++ [.accept (k32 7)])).2.sn 0).map fun x => match x.s.st with
      | .transport _ => true
      | .handshake _ => false) = some true := by decide +kernel

end examples

end Verif.Props
