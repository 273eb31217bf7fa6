import Verif.Proofs.PeerSlots
import Verif.Props.SessionMem

/-!
# Property of the Noise helpers on the heap: C79
-/

set_option linter.unusedSectionVars false

namespace Verif.Props

open TpDkg Noise Noise.Mem NoiseCrypto
open Spec.Device Spec.SessionMem Spec.PeerNoise

section
variable [Hashes] [NoiseCrypto]

/-- The device of a peer with empty slots is represented by the heap. -/
private theorem startN {h0 : Heap} (hk : HeapOk h0) (name : Option Bytes) (sk noiseSk : B32) (n : ℕ) :
    ∃ dvp h1, create Peer.prologue name sk noiseSk h0 = .ok (dvp, h1) ∧ dvp ≠ 0 ∧
      NRep h0 h1 dvp (text name) (World.new Peer.prologue name sk noiseSk) (Vals.new noiseSk n)
        (List.replicate n (.null, 0, none)) [] 0 := by
  obtain ⟨dvp, h1, e1, hn, r, istr, hr, hs⟩ := (Sep.init hk).create Peer.prologue name sk noiseSk
  refine ⟨dvp, h1, e1, hn, rfl, rfl, by simp [World.new, fresh], by simp [Vals.new], ?_, ?_, rfl, rfl, by simp, r, istr, [], ?_, hs⟩
  · intro t ht
    obtain ⟨-, rfl⟩ := List.mem_replicate.mp ht
    rfl
  · intro t ht z hz
    obtain ⟨-, rfl⟩ := List.mem_replicate.mp ht
    cases hz
  · have : allB (List.map (fun x => x.2.2) (List.replicate n ((.null, 0, none) : Slot))) = 0 := by
      refine allB_none fun o ho => ?_
      simp only [List.map_replicate] at ho
      exact (List.mem_replicate.mp ho).2
    rw [this]
    rw [zero_add, show lostB [] + (0 : Blocks) = 0 from by simp [lostB, allB]]
    exact hr

private theorem addrs0 (n : ℕ) : addrs (List.replicate n (.null, 0, none)) = List.replicate n 0 := by
  simp [addrs]

/-- C79: a program of calls of the Noise helpers of the key generation that is defined on sessions as values runs on the
heap without reading, writing or freeing memory that is not allocated. All return values and all bytes that it writes are
the same, a slot holds NULL exactly if its value is NULL, and no block that existed before is touched. -/
theorem C79_refines {h0 : Heap} (hk : HeapOk h0) (name : Option Bytes) (sk noiseSk : B32) (n : ℕ)
    (ops : List Spec.PeerNoise.Op) {outs : List Spec.PeerNoise.Out} {v : Vals}
    (hv : (Vals.new noiseSk n).run ops = .ok (outs, v)) :
    ∃ dvp h1 qs h2, create Peer.prologue name sk noiseSk h0 = .ok (dvp, h1) ∧ dvp ≠ 0 ∧
      Spec.PeerNoise.runAt dvp (List.replicate n 0) ops h1 = .ok ((outs, qs), h2) ∧
      qs.length = v.slots.length ∧
      (∀ (i : ℕ) (p : Ptr Session), v.slots[i]? = some p → (p = .null ↔ qs[i]? = some 0)) ∧
      ∀ a < h0.next, h2.mem a = h0.mem a := by
  obtain ⟨dvp, h1, e1, hn, s1⟩ := startN hk name sk noiseSk n
  have := s1.run ops
  rw [hv] at this
  obtain ⟨h2, w, ts, K, U, e2, s2⟩ := this
  rw [addrs0] at e2
  obtain ⟨_, _, _, hr, -⟩ := s2.rep
  refine ⟨dvp, h1, addrs ts, h2, e1, hn, e2, by simp [addrs, s2.slots], ?_, fun a ha => hr.sep.below ha⟩
  intro i p hp
  rw [s2.slots, List.getElem?_map] at hp
  obtain ⟨t, ht, rfl⟩ := Option.map_eq_some_iff.mp hp
  have hsl := s2.slot t (List.mem_of_getElem? ht)
  have hok := s2.ok t (List.mem_of_getElem? ht)
  simp only [addrs, List.getElem?_map, ht, Option.map_some, Option.some.injEq]
  obtain ⟨p, q, o⟩ := t
  cases p <;> cases o <;> simp only [SlotOk] at hsl
  · simp [hsl]
  · rename_i s z
    have := (hok z rfl).ne
    simp [← hsl.2, this]
  · simp [hsl.1]

/-- C79, exact: a program that uses a session after it was freed, frees it twice, reads a key where there is none or uses
a slot that does not exist has no defined behaviour on the heap either. Messages have at most 1024 bytes, as in the key
generation. -/
theorem C79_exact {h0 : Heap} (hk : HeapOk h0) (name : Option Bytes) (sk noiseSk : B32) (n : ℕ)
    (ops : List Spec.PeerNoise.Op) (hs : ∀ o ∈ ops, short o) {u : UB} (hv : (Vals.new noiseSk n).run ops = .ub u) :
    ∃ dvp h1 u', create Peer.prologue name sk noiseSk h0 = .ok (dvp, h1) ∧
      Spec.PeerNoise.runAt dvp (List.replicate n 0) ops h1 = .ub u' := by
  obtain ⟨dvp, h1, e1, hn, s1⟩ := startN hk name sk noiseSk n
  have := s1.run ops
  rw [hv] at this
  obtain ⟨u', e2⟩ := this hs
  rw [addrs0] at e2
  exact ⟨dvp, h1, u', e1, e2⟩

private theorem peerBlocks_named {ps : List Entry} (h : ∀ e ∈ ps, e.name ≠ []) : peerBlocks ps = 4 * ps.length := by
  induction ps with
  | nil => rfl
  | cons e ps ih =>
    simp only [peerBlocks, List.map_cons, List.sum_cons, h e List.mem_cons_self, if_false, List.length_cons] at ih ⊢
    rw [ih fun e he => h e (List.mem_cons_of_mem _ he)]
    omega

private theorem step_prologue {v v' : Vals} {op : Spec.PeerNoise.Op} {out : Spec.PeerNoise.Out}
    (h : v.step op = .ok (out, v')) : v'.dv.prologue = v.dv.prologue := by
  have h1 : ∀ (dv : Noise.Device) (k : B32), (deviceAddPeer dv k).2.prologue = dv.prologue := by
    intro dv k; unfold deviceAddPeer; split <;> rfl
  have h2 : ∀ (dv : Noise.Device) (pid : UInt32) (e : B32), (createInitiator dv pid e).2.prologue = dv.prologue := by
    intro dv pid e; unfold createInitiator; split
    · rfl
    · split <;> rfl
  have h3 : ∀ (dv : Noise.Device) (e : B32), (createResponder dv e).2.prologue = dv.prologue := by
    intro dv e; unfold createResponder; split <;> rfl
  have hi : ∀ (dv : Noise.Device) (s : Ptr Session) (k e : B32), (initNoise dv s k e).2.1.prologue = dv.prologue := by
    intro dv s k e
    rw [initNoise_eq]
    have g1 := h1 dv k
    rcases hd : deviceAddPeer dv k with ⟨_ | pid, dv1⟩ <;> rw [hd] at g1
    · exact g1
    · have g2 := h2 dv1 pid e
      simp only at g1 ⊢
      rcases hc : createInitiator dv1 pid e with ⟨_ | sn, dv2⟩ <;> rw [hc] at g2 <;> exact g2.trans g1
  have hr : ∀ (dv : Noise.Device) (m : Bytes) (e : B32), (respondNoise dv m e).2.1.prologue = dv.prologue := by
    intro dv m e
    rw [respondNoise_eq]
    have g := h3 dv e
    rcases hc : createResponder dv e with ⟨_ | sn, dv2⟩ <;> rw [hc] at g <;> exact g
  cases op <;> simp only [Vals.step] at h <;> obtain ⟨slot, -, h⟩ := C.bind_eq_ok.mp h
  · injection h with h; injection h with _ h; subst h
    split <;> exact hi _ _ _ _
  · injection h with h; injection h with _ h; subst h
    exact hr _ _ _
  all_goals
    obtain ⟨x, -, h⟩ := C.bind_eq_ok.mp h
    injection h with h; injection h with _ h; subst h
    rfl

private theorem run_prologue' {ops : List Spec.PeerNoise.Op} {v v' : Vals} {outs : List Spec.PeerNoise.Out}
    (h : v.run ops = .ok (outs, v')) : v'.dv.prologue = v.dv.prologue := by
  induction ops generalizing v outs with
  | nil => cases h; rfl
  | cons o os ih =>
    simp only [Vals.run] at h
    obtain ⟨⟨out, v1⟩, h1, h⟩ := C.bind_eq_ok.mp h
    obtain ⟨⟨rs, v2⟩, h2, h⟩ := C.bind_eq_ok.mp h
    injection h with h; injection h with _ h; subst h
    exact (ih h2).trans (step_prologue h1)

private theorem run_prologue {ops : List Spec.PeerNoise.Op} {sk : B32} {n : ℕ} {v' : Vals} {outs : List Spec.PeerNoise.Out}
    (h : (Vals.new sk n).run ops = .ok (outs, v')) : v'.dv.prologue = Peer.prologue := run_prologue' h

private theorem card_snB {dvp : ℕ} {spriv : B32} {z : SnPtr × Sn} (ok : SnOk dvp spriv z) : 8 ≤ Multiset.card (snB z) := by
  have hst := ok.st
  unfold StOk at hst
  unfold snB core stBlocks
  revert hst
  cases z.1.r.st <;> cases z.2.s.st
  · rintro -
    simp only [Multiset.card_add, Multiset.card_singleton, hsBlocks]
    omega
  · exact fun h => h.elim
  · exact fun h => h.elim
  · rintro -
    simp only [Multiset.card_add, Multiset.card_singleton, tsBlocks]
    omega

private theorem card_lostB {dvp : ℕ} {spriv : B32} {K : List (SnPtr × Sn)} (ok : ∀ z ∈ K, SnOk dvp spriv z) :
    8 * K.length ≤ Multiset.card (lostB K) := by
  induction K with
  | nil => simp [lostB, allB]
  | cons z K ih =>
    have h1 := card_snB (ok z List.mem_cons_self)
    have h2 := ih fun z hz => ok z (List.mem_cons_of_mem _ hz)
    simp only [lostB, List.map_cons, allB, Multiset.card_add, List.length_cons] at h2 ⊢
    omega

/-- C79, released: when no slot holds an open session, nothing of the sessions is left but the blocks of received messages
that leaked and the sessions whose slot was overwritten, at least eight blocks each. `device_free` then leaves these, the
storage key and four blocks for every peer. -/
theorem C79_released {h0 : Heap} (hk : HeapOk h0) (name : Option Bytes) (sk noiseSk : B32) (n : ℕ)
    (ops : List Spec.PeerNoise.Op) {outs : List Spec.PeerNoise.Out} {v : Vals}
    (hv : (Vals.new noiseSk n).run ops = .ok (outs, v)) (hclosed : ∀ p ∈ v.slots, isLive p = false)
    {dvp : ℕ} {h1 h2 : Heap} {res : List Spec.PeerNoise.Out × List ℕ}
    (e1 : create Peer.prologue name sk noiseSk h0 = .ok (dvp, h1))
    (e2 : Spec.PeerNoise.runAt dvp (List.replicate n 0) ops h1 = .ok (res, h2)) :
    ∃ more, 8 * v.lost ≤ more ∧ (v.lost = 0 → more = 0) ∧
    (∃ left : List ℕ, left.Nodup ∧ (∀ a, h0.next ≤ a → (h2.mem a ≠ none ↔ a ∈ left)) ∧
      left.length = 7 + (if text name = [] then 0 else 1) + 5 * v.dv.peers.length + v.leaked + more) ∧
    ∃ h3, deviceFree dvp h2 = .ok ((), h3) ∧ (∀ a < h0.next, h3.mem a = h0.mem a) ∧
      ∃ left : List ℕ, left.Nodup ∧ (∀ a, h0.next ≤ a → (h3.mem a ≠ none ↔ a ∈ left)) ∧
        left.length = 1 + 4 * v.dv.peers.length + v.leaked + more := by
  obtain ⟨dvp', h1', e1', hn, s1⟩ := startN hk name sk noiseSk n
  obtain ⟨rfl, rfl⟩ : dvp' = dvp ∧ h1' = h1 := by
    rw [e1] at e1'; injection e1' with e; injection e with a b; exact ⟨a.symm, b.symm⟩
  have := s1.run ops
  rw [hv] at this
  obtain ⟨h2', w, ts, K, U, e2', s2⟩ := this
  rw [addrs0] at e2'
  obtain rfl : h2' = h2 := by rw [e2] at e2'; injection e2' with e; injection e with a b; exact b.symm
  obtain ⟨r, istr, ns, hr, -⟩ := s2.rep
  have hz : allB (ts.map (·.2.2)) = 0 := by
    refine allB_none fun o ho => ?_
    obtain ⟨t, ht, rfl⟩ := List.mem_map.mp ho
    have := hclosed t.1 (by rw [s2.slots]; exact List.mem_map_of_mem ht)
    rw [(s2.slot t ht).isLive] at this
    simpa using this
  rw [hz, zero_add] at hr
  have hpl : w.d.peers.length = v.dv.peers.length := by rw [s2.peers, List.length_map]
  have hpr : w.prologue = Peer.prologue := by
    have : w.device.prologue = Peer.prologue := by rw [s2.dev]; exact run_prologue hv
    exact this
  have hp4 := peerBlocks_named s2.names
  refine ⟨Multiset.card (lostB K), by rw [← s2.lost]; exact card_lostB s2.kept, fun h => ?_, ?_, ?_⟩
  · have : K = [] := List.length_eq_zero_iff.mp (s2.lost.trans h)
    rw [this]; rfl
  · obtain ⟨l, hl, hm, hc⟩ := hr.sep.addresses
    refine ⟨l, hl, hm, ?_⟩
    rw [hc, hpr, ← s2.leaked, ← hpl]
    rw [hr.peers] at hp4 ⊢
    rw [List.length_map] at hp4 ⊢
    have hne : Peer.prologue ≠ [] := by simp [Peer.prologue]
    simp only [devBlocks, strBlock, prlgBlock, s2.name, Multiset.card_add, card_cells, card_bodies, hp4, hne, if_false]
    split <;> simp only [Multiset.card_zero, Multiset.card_singleton] <;> omega
  · obtain ⟨h3, e3, s3, _⟩ := hr.deviceFree
    refine ⟨h3, e3, fun a ha => s3.below ha, ?_⟩
    obtain ⟨l, hl, hm, hc⟩ := s3.addresses
    refine ⟨l, hl, hm, ?_⟩
    rw [hc, ← s2.leaked, ← hpl]
    rw [hr.peers] at hp4 ⊢
    rw [List.length_map] at hp4 ⊢
    simp only [Multiset.card_add, Multiset.card_singleton, card_bodies, hp4]
    omega

end

/-! ### Examples -/

section examples

attribute [local instance] Toy.hashes Toy.noise

private def k32 (n : UInt8) : B32 := Vector.replicate 32 n

private def runV (noiseSk : B32) (ops : List Spec.PeerNoise.Op) : List Spec.PeerNoise.Out × Vals :=
  match (Vals.new noiseSk 2).run ops with
  | .ok r => r
  | .ub _ => ([], Vals.new noiseSk 0)

/-- The bytes of the last answer. -/
private def lastB (r : List Spec.PeerNoise.Out × Vals) : Bytes :=
  match r.1.getLast? with
  | some (.ret _ (some m)) => m
  | _ => []

private def rets (r : List Spec.PeerNoise.Out × Vals) : List (Option (Int × ℕ)) :=
  r.1.map fun o => match o with
    | .ret r m => some (r, (m.getD []).length)
    | _ => none

/-- Two peers: the first opens a session with the second and sends three bytes. -/
private def a1 : List Spec.PeerNoise.Op := [.init 0 0 (xbase (k32 4)) (k32 5)]
private def b1 : List Spec.PeerNoise.Op := [.init 0 1 (xbase (k32 2)) (k32 9), .respond 1 (lastB (runV (k32 2) a1)) (k32 6)]
private def a2 : List Spec.PeerNoise.Op := a1 ++ [.finish true 0 (lastB (runV (k32 4) b1)), .encrypt 0 [] 64]
private def a3 : List Spec.PeerNoise.Op := a2 ++ [.encrypt 0 [7, 8, 9] 19]
private def b2 : List Spec.PeerNoise.Op :=
  b1 ++ [.decrypt 1 (lastB (runV (k32 2) a2)) 0, .decrypt 1 (lastB (runV (k32 2) a3)) 3]

example : rets (runV (k32 2) a3) = [some (0, 48), some (0, 0), some (0, 64), some (0, 19)] ∧
    rets (runV (k32 4) b2) = [some (0, 48), some (0, 48), some (0, 0), some (0, 3)] ∧
    lastB (runV (k32 4) b2) = [7, 8, 9] ∧ (runV (k32 4) b2).2.leaked = 0 ∧ (runV (k32 4) b2).2.lost = 0 := by decide +kernel

/-- After the slots were freed there is no open session. -/
example : (runV (k32 4) (b2 ++ [.free 0, .free 1])).2.slots.map isLive = [false, false] ∧
    (runV (k32 4) (b2 ++ [.free 0, .free 1])).1.length = 6 := by decide +kernel

/-- A message of three bytes cannot be read: the session is freed and its use has no defined behaviour. -/
example : (match (Vals.new (k32 2) 2).run (a1 ++ [.finish false 0 [1, 2, 3], .encrypt 0 [] 64]) with
    | .ub u => some u
    | .ok _ => none) = some .freed ∧ ∀ o ∈ a1 ++ [.finish false 0 [1, 2, 3], .encrypt 0 [] 64], short o := by
  refine ⟨by decide +kernel, ?_⟩
  intro o ho
  simp only [a1, List.cons_append, List.nil_append, List.mem_cons, List.not_mem_nil, or_false] at ho
  rcases ho with rfl | rfl | rfl <;> simp [short]

/-- A slot that is overwritten loses the session, and a text that nobody takes leaks. -/
example : (runV (k32 2) (a1 ++ [.init 0 0 (xbase (k32 8)) (k32 5)])).2.lost = 1 ∧
    (runV (k32 4) (b2 ++ [.finish false 1 (lastB (runV (k32 2) (a3 ++ [.encrypt 0 [7, 8, 9] 19])))])).2.leaked ≠ 0 := by
  decide +kernel

end examples

end Verif.Props
