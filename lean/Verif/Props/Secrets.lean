import Verif.Proofs.PeerStep
import Verif.Proofs.PeerToy
import Verif.Props.PeerRun

/-!
# The secrets in the state of a peer (C74)
-/

set_option linter.unusedSectionVars false

namespace Verif.Props

open Verif.TpDkg Verif.Wire Verif.H

section
variable [Signing] [Hashes] [NoiseCrypto] [Mac] (G : Type) [Ristretto G]

/-- Later calls leave the field of the long-term key alone. -/
theorem peerCalls_ltSk {clock : ℕ → UInt64} : ∀ {calls : List PCall} {p p' : PeerState} {rs : List Int}, p.step ≠ 0 →
    peerCalls G clock p calls = .ok (rs, p') → p'.ltSk = p.ltSk
  | [], _, _, _, _, h => by cases h; rfl
  | a :: calls, p, p', rs, h0, h => by
    obtain ⟨r, p1, o, rs1, h1, h2, rfl⟩ := peerCalls_cons G h
    obtain ⟨e, -⟩ := peerNext_frame G (f := fun c => c.ltSk)
      ⟨fun _ _ _ => rfl, fun _ _ _ _ => rfl⟩ (fun _ _ _ => rfl) (fun h => absurd h h0)
      (fun _ => ⟨fun _ _ => rfl, fun _ _ => rfl, fun _ _ _ => rfl, fun _ _ _ _ _ => rfl⟩)
      (fun _ => ⟨fun _ _ => rfl, fun _ _ _ => rfl⟩) (fun _ => ⟨fun _ _ _ => rfl, fun _ _ _ => rfl⟩)
      (fun _ => ⟨fun _ _ => rfl, fun _ _ _ => rfl, fun _ _ _ => rfl⟩) (fun _ => ⟨fun _ _ _ => rfl, fun _ _ _ => rfl⟩)
      (fun _ => ⟨fun _ _ => rfl, fun _ _ _ _ => rfl, fun _ _ _ _ => rfl⟩) (fun _ _ _ => rfl) h1
    obtain ⟨s1, -, s2⟩ := peerNext_step G h1
    refine (peerCalls_ltSk (fun hz => ?_) h2).trans e
    by_cases hr : r = 0
    · have := s2 hr
      omega
    · have := s1 hr
      omega

/-- The outcomes of the first call, whatever the long-term key is: an error that keeps it, or a message that it signs. -/
theorem first_call (clock : ℕ → UInt64) (a : PCall) (p : PeerState) (h0 : p.step = 0) :
    (∃ (r : Int) (s : PeerState), r ≠ 0 ∧ ∀ k, a.run G clock { p with ltSk := k } = .ok (r, pafter r { s with ltSk := k }, a.out)) ∨
    ∃ s m, m.length = 175 ∧ s.ltSk = Vector.replicate 64 0 ∧
      ∀ k, a.run G clock { p with ltSk := k } = .ok (0, pafter 0 s, m ++ (Signing.sign k m).toList) := by
  have key : ∀ (k : B64) (r : Int) (s : PRun),
      Wp (Peer.step23 clock a.log a.rnd a.input) False (fun r' s' => r' = r ∧ s' = s) (fun r' s' => r' = r ∧ s' = s)
        ⟨{ p with ltSk := k }, a.out⟩ → a.run G clock { p with ltSk := k } = .ok (r, pafter r s.ctx, s.out) := by
    intro k r s hw
    obtain ⟨r', s', h1, h2⟩ := peerNext_total G (clock := clock) (log := a.log) (mlock := a.mlock) (scratch := a.scratch)
      (rnd := a.rnd) (c := { p with ltSk := k }) (input := a.input) (out := a.out)
      (E := fun r' s' => r' = r ∧ s' = s) (Q := fun r' s' => r' = r ∧ s' = s) (by
        show Wp (Peer.handler G clock a.log a.mlock a.scratch a.rnd a.input p.step) _ _ _ _
        have e : Peer.handler G clock a.log a.mlock a.scratch a.rnd a.input p.step =
            Peer.step23 clock a.log a.rnd a.input := by rw [h0]; rfl
        rw [e]
        exact hw)
    obtain ⟨rfl, rfl⟩ : r' = r ∧ s' = s := h2.elim id id
    exact h1
  by_cases hin : a.input.length = 111
  case neg =>
    refine .inl ⟨1, p, by decide, fun k => key k 1 ⟨{ p with ltSk := k }, a.out⟩ ?_⟩
    unfold Peer.step23
    rw [wp_bind, wp_get, wp_ite]
    exact ⟨fun _ => ⟨rfl, rfl⟩, fun h => absurd hin h⟩
  by_cases hout : a.out.length = 239
  case neg =>
    refine .inl ⟨2, p, by decide, fun k => key k 2 ⟨{ p with ltSk := k }, a.out⟩ ?_⟩
    unfold Peer.step23
    rw [wp_bind, wp_get, wp_ite]
    refine ⟨fun h => absurd hin h, fun _ => ?_⟩
    rw [wp_ite]
    exact ⟨fun _ => ⟨rfl, rfl⟩, fun h => absurd hout h⟩
  cases hR : recvMsg (clock p.ticks) a.input 0 111 1 0 (a.input.getD 70 0) p.tpSigPk p.sid p.eps p.tpLastTs with
  | ub x =>
    exfalso
    obtain ⟨r, s, -, h⟩ := wp_result.1 (Peer.wp_step23 (U := False) (E := fun _ _ => False) (Q := fun _ _ => False)
      (clock := clock) (log := a.log) (rnd := a.rnd) (s := ⟨p, a.out⟩) hin hout
      (fun r last k h => absurd (hR.symm.trans h) nofun) (fun last k h => absurd (hR.symm.trans h) nofun)
      (fun last k h => absurd (hR.symm.trans h) nofun))
    exact h
  | ok v =>
    obtain ⟨r, last, n⟩ := v
    by_cases hr : r = 0
    · subst hr
      by_cases hi : 1 ≤ (a.input.getD 70 0).toNat ∧ (a.input.getD 70 0).toNat ≤ 128
      · refine .inr ⟨Peer.ctx23 p a.rnd (a.input.getD 70 0) last n,
          Peer.msg2 (Peer.ctx23 p a.rnd (a.input.getD 70 0) last n) (clock (p.ticks + n)), ?_, rfl, fun k => ?_⟩
        · unfold Peer.msg2
          rw [encode_length, List.length_append, Vector.length_toList, Vector.length_toList]
        · refine key k 0 ⟨_, _⟩ (Peer.wp_step23 (s := ⟨{ p with ltSk := k }, a.out⟩) hin hout ?_ ?_ ?_)
          · intro r' l' n' h' hr'
            cases hR.symm.trans h'
            exact absurd rfl hr'
          · intro l' n' h' hi'
            exact absurd hi hi'
          · intro l' n' h' _ _
            cases hR.symm.trans h'
            exact ⟨rfl, rfl⟩
      · refine .inl ⟨3, Peer.receivedTp p last n, by decide, fun k =>
          key k 3 ⟨{ Peer.receivedTp p last n with ltSk := k }, a.out⟩ (Peer.wp_step23 (s := ⟨{ p with ltSk := k }, a.out⟩) hin hout ?_ ?_ ?_)⟩
        · intro r' l' n' h' hr'
          cases hR.symm.trans h'
          exact absurd rfl hr'
        · intro l' n' h' hi'
          cases hR.symm.trans h'
          exact ⟨rfl, rfl⟩
        · intro l' n' h' h1 h2
          exact absurd ⟨h1, h2⟩ hi
    · have h7 := recvMsg_range hR
      refine .inl ⟨4 + r, Peer.receivedTp p last n, by omega, fun k =>
        key k (4 + r) ⟨{ Peer.receivedTp p last n with ltSk := k }, a.out⟩ (Peer.wp_step23 (s := ⟨{ p with ltSk := k }, a.out⟩) hin hout ?_ ?_ ?_)⟩
      · intro r' l' n' h' hr'
        cases hR.symm.trans h'
        exact ⟨rfl, rfl⟩
      · intro l' n' h' hi'
        cases hR.symm.trans h'
        exact absurd rfl hr
      · intro l' n' h' h1 h2
        cases hR.symm.trans h'
        exact absurd rfl hr

/-- **C74.** Once message 2 is sent, the state of the peer does not contain the long-term key any more, whatever calls
follow. -/
theorem C74_erased_partial (clock : ℕ → UInt64) (a : PCall) (calls : List PCall) (p p' : PeerState) (rs : List Int) (h0 : p.step = 0)
    (h : peerCalls G clock p (a :: calls) = .ok (0 :: rs, p')) : p'.ltSk = Vector.replicate 64 0 := by
  obtain ⟨r, p1, o, rs1, h1, h2, e⟩ := peerCalls_cons G h
  cases e
  obtain ⟨r, s, hr, hk⟩ | ⟨s, m, hm, hs, hk⟩ := first_call G clock a p h0
  · cases h1.symm.trans (hk p.ltSk)
    exact absurd rfl hr
  · cases h1.symm.trans (hk p.ltSk)
    exact (peerCalls_ltSk G (Nat.succ_ne_zero _) h2).trans hs

/-- **C74.** The long-term key signs message 2 and nothing else: with another key `k` the first call has the same result
and the same state after it, and the output differs only in the signature at its end. -/
theorem C74_used_once (clock : ℕ → UInt64) (a : PCall) (p p' : PeerState) (o : Bytes) (h0 : p.step = 0)
    (h : a.run G clock p = .ok (0, p', o)) (k : B64) :
    a.run G clock { p with ltSk := k } = .ok (0, p', o.take 175 ++ (Signing.sign k (o.take 175)).toList) := by
  obtain ⟨r, s, hr, hk⟩ | ⟨s, m, hm, hs, hk⟩ := first_call G clock a p h0
  · cases h.symm.trans (hk p.ltSk)
    exact absurd rfl hr
  · have e := h.symm.trans (hk p.ltSk)
    rw [C.ok.injEq, Prod.mk.injEq, Prod.mk.injEq] at e
    obtain ⟨-, rfl, rfl⟩ := e
    rw [hk k, ← hm, List.take_left]

/-- **C74**, violated: when the first call fails, the long-term key stays in the state for good. -/
theorem C74_error_violated (clock : ℕ → UInt64) (a : PCall) (calls : List PCall) (p p' : PeerState) (r : Int) (rs : List Int)
    (h0 : p.step = 0) (hr : r ≠ 0) (h : peerCalls G clock p (a :: calls) = .ok (r :: rs, p')) : p'.ltSk = p.ltSk := by
  obtain ⟨r, p1, o, rs1, h1, h2, e⟩ := peerCalls_cons G h
  cases e
  obtain ⟨r, s, hr', hk⟩ | ⟨s, m, hm, hs, hk⟩ := first_call G clock a p h0
  · cases h1.symm.trans (hk p.ltSk)
    refine (peerCalls_ltSk G ?_ h2).trans rfl
    show (if _ then _ else _) ≠ 0
    rw [if_pos hr]
    decide
  · cases h1.symm.trans (hk p.ltSk)
    exact absurd rfl hr

end

/-- **C74**, violated: `tpdkg_peer_free` leaves the keys and the shares of the peer in the caller's memory. -/
theorem C74_free_violated (c c' : PeerState) (h : peerFree c = .ok c') :
    c'.ltSk = c.ltSk ∧ c'.sigSk = c.sigSk ∧ c'.noiseSk = c.noiseSk ∧ c'.share = c.share ∧ c'.shares = c.shares ∧
      c'.xshares = c.xshares := by
  unfold peerFree at h
  obtain ⟨⟨ins, outs⟩, -, h⟩ := C.bind_eq_ok.1 h
  obtain ⟨dev, -, h⟩ := C.bind_eq_ok.1 h
  cases h
  exact ⟨rfl, rfl, rfl, rfl, rfl, rfl⟩

section
attribute [local instance] Ristretto.toy Toy.hashes Toy.signing Toy.noise Toy.mac

/-- A peer with a long-term key. -/
private def keyed : PeerState := { Toy.peer 0 with ltSk := Vector.replicate 64 7 }

/-- The hypotheses of `C74_erased_partial` hold: message 1, and then a message that is refused. -/
example : ∃ rs p', keyed.step = 0 ∧ keyed.ltSk ≠ Vector.replicate 64 0 ∧
    peerCalls (ZMod L) (fun _ => 5) keyed [Toy.pcall (Toy.msg 111 1 0 2 []) 239, Toy.pcall [1] 0] = .ok (0 :: rs, p') ∧
    p'.step = 99 := by
  obtain ⟨⟨rs, p'⟩, h1, h2⟩ := Toy.isOk_elim
    (p := fun p => p.1.head? == some 0 && p.1.length == 2 && p.2.step == 99)
    (x := peerCalls (ZMod L) (fun _ => 5) keyed [Toy.pcall (Toy.msg 111 1 0 2 []) 239, Toy.pcall [1] 0]) (by decide +kernel)
  simp only [Bool.and_eq_true, beq_iff_eq] at h2
  cases rs with
  | nil => exact absurd h2.1.1 nofun
  | cons a rs =>
    obtain rfl : a = 0 := Option.some.inj h2.1.1
    exact ⟨rs, p', rfl, by decide +kernel, h1, h2.2⟩

/-- The hypotheses of `C74_used_once` hold. -/
example : ∃ p' o, (Toy.pcall (Toy.msg 111 1 0 2 []) 239).run (ZMod L) (fun _ => 5) keyed = .ok (0, p', o) ∧
    o.length = 239 := by
  obtain ⟨⟨r, p', o⟩, h1, h2⟩ := Toy.isOk_elim (p := fun p => p.1 == 0 && p.2.2.length == 239)
    (x := (Toy.pcall (Toy.msg 111 1 0 2 []) 239).run (ZMod L) (fun _ => 5) keyed) (by decide +kernel)
  simp only [Bool.and_eq_true, beq_iff_eq] at h2
  obtain ⟨rfl, h3⟩ := h2
  exact ⟨p', o, h1, h3⟩

/-- The hypotheses of `C74_error_violated` hold: a message 1 with a wrong length, and two more calls. -/
example : ∃ p', keyed.step = 0 ∧
    peerCalls (ZMod L) (fun _ => 5) keyed [Toy.pcall [1] 239, Toy.pcall [] 0, Toy.pcall [] 0] = .ok ([1, 99, 99], p') :=
  ⟨_, rfl, rfl⟩

end

/-- The hypothesis of `C74_free_violated` holds, with shares that are not zero. -/
example : ∃ c', peerFree (Toy.peer 9) = .ok c' ∧ (Toy.peer 9).xshares.map (·.value) ≠ List.replicate 3 zero32 :=
  ⟨_, rfl, by decide +kernel⟩

end Verif.Props
