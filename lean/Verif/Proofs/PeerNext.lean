import Verif.Proofs.PeerErr
import Verif.Spec.Peer

/-!
# Calls of `tpdkg_peer_next`
-/

set_option linter.unusedSectionVars false

namespace Verif.TpDkg

open H Wire

theorem wp_of_pres {σ α : Type} {R : σ → σ → Prop} {V : α → Prop} {m : H σ α} {E : Int → σ → Prop} {Q : α → σ → Prop}
    {s : σ} (h : Pres R V m) (hE : ∀ e s', R s s' → E e s') (hQ : ∀ a s', R s s' → V a → Q a s') : Wp m True E Q s :=
  (h s).mono id hE fun a s' h => hQ a s' h.1 h.2

variable [Signing] [Hashes] [NoiseCrypto] [Mac] (G : Type) [Ristretto G]
variable {clock : ℕ → UInt64} {log mlock : Bool} {scratch : B32} {rnd : Rnd} {c c' : PeerState} {input out o : Bytes}
  {r : Int}

/-- The context after a call whose handler returned `r`. -/
def pafter (r : Int) (c : PeerState) : PeerState :=
  { c with prev := c.step, step := if r ≠ 0 then 99 else c.step + 1 }

theorem peerNext_eq : peerNext G clock log mlock scratch rnd c input out =
    ((Peer.handler G clock log mlock scratch rnd input c.step).result ⟨c, out⟩ >>= fun p =>
      .ok (p.1, pafter p.1 p.2.ctx, p.2.out)) := rfl

/-- What holds for the results of the handler holds for the results of the call. -/
theorem peerNext_elim {U : Prop} {E Q : Int → PRun → Prop}
    (hw : Wp (Peer.handler G clock log mlock scratch rnd input c.step) U E Q ⟨c, out⟩)
    (hr : peerNext G clock log mlock scratch rnd c input out = .ok (r, c', o)) :
    ∃ s, (E r s ∨ Q r s) ∧ c' = pafter r s.ctx ∧ o = s.out := by
  rw [peerNext_eq, C.bind_eq_ok] at hr
  obtain ⟨⟨r', s⟩, h1, h2⟩ := hr
  have h3 : Wp (Peer.handler G clock log mlock scratch rnd input c.step) True (fun r s => E r s ∨ Q r s)
      (fun r s => E r s ∨ Q r s) ⟨c, out⟩ := hw.mono (fun _ => trivial) (fun _ _ h => .inl h) (fun _ _ h => .inr h)
  have h4 := (wlp_result.1 h3) r' s h1
  cases h2
  exact ⟨s, h4, rfl, rfl⟩

theorem peerNext_total {E Q : Int → PRun → Prop}
    (hw : Wp (Peer.handler G clock log mlock scratch rnd input c.step) False E Q ⟨c, out⟩) :
    ∃ r s, peerNext G clock log mlock scratch rnd c input out = .ok (r, pafter r s.ctx, s.out) ∧ (E r s ∨ Q r s) := by
  have h3 : Wp (Peer.handler G clock log mlock scratch rnd input c.step) False (fun r s => E r s ∨ Q r s)
      (fun r s => E r s ∨ Q r s) ⟨c, out⟩ := hw.mono id (fun _ _ h => .inl h) (fun _ _ h => .inr h)
  obtain ⟨r, s, h1, h2⟩ := wp_result.1 h3
  refine ⟨r, s, ?_, h2⟩
  rw [peerNext_eq, h1]
  rfl

/-- A finished or failed run refuses every call. -/
theorem peerNext_ended (h : 10 < c.step) : peerNext G clock log mlock scratch rnd c input out =
    .ok (99, { c with prev := c.step, step := 99 }, out) := by
  have : Peer.handler G clock log mlock scratch rnd input c.step = pure 99 := by
    unfold Peer.handler
    split <;> first | omega | rfl
  rw [peerNext_eq, this]
  rfl

namespace Peer

/-! ## The step counter -/

/-- The step counter after a handler. -/
def StepAfter (c c' : PeerState) : Prop :=
  c'.step = c.step ∨ (c.step = 6 ∧ c'.step = 7) ∨ (c.step = 7 ∧ c'.step = 99)

theorem stamps_step : Stamps (fun c : PeerState => c.step) := ⟨fun _ _ _ => rfl, fun _ _ _ _ => rfl⟩

theorem step_step17 {s : PRun} (h : s.ctx.step = 6) : Wp (step17 clock log input) True
    (fun _ s' => StepAfter s.ctx s'.ctx) (fun r s' => StepAfter s.ctx s'.ctx ∧ r = 0) s := by
  have F := stamps_step
  unfold step17
  rw [wp_bind, wp_get]
  dsimp only
  rw [wp_ite]
  refine ⟨fun _ => .inl rfl, fun _ => ?_⟩
  rw [wp_ite]
  refine ⟨fun _ => .inl rfl, fun _ => ?_⟩
  rw [wp_bind]
  refine wp_of_pres (R := Keep (·.step)) (pres_dump _ _ _ _) (fun _ _ h => .inl h.1) fun _ s1 h1 _ => ?_
  rw [wp_bind]
  refine wp_of_pres (pres_recvTp F _ _ _ _) (fun _ s' h => .inl (h.1.trans h1.1)) fun r s2 h2 _ => ?_
  rw [wp_ite]
  refine ⟨fun _ => .inl (h2.1.trans h1.1), fun _ => ?_⟩
  rw [wp_bind, wp_transcript, wp_bind]
  have hb : Pres (Keep (·.step)) (fun _ => True)
      (H.forN s.ctx.n.toNat (step17Body clock log input s.ctx.n)) := by
    unfold step17Body step17Inner
    set f : PeerState → ℕ := (·.step)
    ppres [pres_addComplaint (fun _ _ _ _ => rfl) _, pres_addMine (fun _ _ _ _ => rfl) _]
  refine wp_of_pres hb (fun _ s' h' => .inl (h'.1.trans (h2.1.trans h1.1))) fun _ s3 h3 _ => ?_
  have e3 : s3.ctx.step = s.ctx.step := h3.1.trans (h2.1.trans h1.1)
  rw [wp_bind, wp_get, wp_ite]
  refine ⟨fun _ => ?_, fun _ => ⟨.inl e3, rfl⟩⟩
  rw [wp_bind, wp_setCtx]
  refine ⟨.inr (.inl ⟨h, ?_⟩), rfl⟩
  show s3.ctx.step + 1 = 7
  omega

theorem step_step17a {s : PRun} (h : s.ctx.step = 7) : Wp (step17a clock log input) True
    (fun _ s' => StepAfter s.ctx s'.ctx) (fun r s' => StepAfter s.ctx s'.ctx ∧ r = 0) s := by
  have F := stamps_step
  unfold step17a
  rw [wp_bind, wp_get]
  rw [wp_ite]
  refine ⟨fun _ => .inl rfl, fun _ => ?_⟩
  rw [wp_ite]
  refine ⟨fun _ => .inl rfl, fun _ => ?_⟩
  rw [wp_ite]
  refine ⟨fun _ => ⟨.inl rfl, rfl⟩, fun _ => ?_⟩
  have hb : Pres (Keep (·.step)) (fun _ => True) (H.forN s.ctx.myLen.toNat step17aBody) := by
    unfold step17aBody
    set f : PeerState → ℕ := (·.step)
    ppres []
  rw [wp_bind]
  refine wp_of_pres hb (fun _ s' h' => .inl h'.1) fun _ s1 h1 _ => ?_
  rw [wp_bind]
  refine wp_of_pres (pres_send F _ _ _ _ _) (fun _ s' h' => .inl (h'.1.trans h1.1)) fun _ s2 h2 _ => ?_
  rw [wp_bind]
  refine wp_of_pres (R := Keep (·.step)) (pres_dumpOut _ _ _) (fun _ s' h' => .inl (h'.1.trans (h2.1.trans h1.1)))
    fun _ s3 h3 _ => ?_
  rw [wp_bind, wp_setCtx]
  exact ⟨.inr (.inr ⟨h, rfl⟩), rfl⟩

theorem step_handler (s : PRun) : Wp (handler G clock log mlock scratch rnd input s.ctx.step) True
    (fun _ s' => StepAfter s.ctx s'.ctx) (fun r s' => StepAfter s.ctx s'.ctx ∧ (r = 0 ↔ s.ctx.step ≤ 10)) s := by
  have F := stamps_step
  have k : ∀ {m : H PRun Int}, Pres (Keep fun c : PeerState => c.step) (fun r => r = 0) m → s.ctx.step ≤ 10 →
      Wp m True (fun _ s' => StepAfter s.ctx s'.ctx) (fun r s' => StepAfter s.ctx s'.ctx ∧ (r = 0 ↔ s.ctx.step ≤ 10)) s :=
    fun h h10 => wp_of_pres h (fun _ _ h => .inl h.1) fun r _ h hr => ⟨.inl h.1, ⟨fun _ => h10, fun _ => hr⟩⟩
  have k' : ∀ {m : H PRun Int}, Wp m True
      (fun _ s' => StepAfter s.ctx s'.ctx) (fun r s' => StepAfter s.ctx s'.ctx ∧ r = 0) s → s.ctx.step ≤ 10 →
      Wp m True (fun _ s' => StepAfter s.ctx s'.ctx) (fun r s' => StepAfter s.ctx s'.ctx ∧ (r = 0 ↔ s.ctx.step ≤ 10)) s :=
    fun h h10 => h.mono id (fun _ _ h => h) fun r _ h => ⟨h.1, ⟨fun _ => h10, fun _ => h.2⟩⟩
  unfold handler
  split
  · exact k (pres_step23 F (fun _ _ _ _ _ _ => rfl) (fun _ _ => rfl)) (by omega)
  · exact k (pres_step5 F (fun _ _ => rfl) (fun _ _ => rfl) (fun _ _ _ => rfl) (fun _ _ _ _ _ => rfl)) (by omega)
  · exact k (pres_step7 F (fun _ _ => rfl) (fun _ _ _ => rfl)) (by omega)
  · exact k (pres_step911 F G (fun _ _ _ => rfl) (fun _ _ _ => rfl)) (by omega)
  · exact k (pres_step13 F (fun _ _ => rfl) (fun _ _ _ => rfl) (fun _ _ _ => rfl)) (by omega)
  · exact k (pres_step15 F G (fun _ _ _ => rfl) (fun _ _ _ => rfl)) (by omega)
  · exact k' (step_step17 (by assumption)) (by omega)
  · exact k' (step_step17a (by assumption)) (by omega)
  · exact k (pres_step19 F) (by omega)
  · exact k (pres_step21 F (fun _ _ => rfl)) (by omega)
  · exact ⟨.inl rfl, ⟨fun _ => by omega, fun _ => rfl⟩⟩
  · refine ⟨.inl rfl, ⟨fun h => absurd h (by decide), fun h => ?_⟩⟩
    simp only [imp_false] at *
    omega

end Peer

/-- How a call changes the step counter. -/
theorem peerNext_step (h : peerNext G clock log mlock scratch rnd c input out = .ok (r, c', o)) :
    (r ≠ 0 → c'.step = 99) ∧ (10 < c.step → r ≠ 0) ∧
    (r = 0 → c'.step = c.step + 1 ∨ (c.step = 6 ∧ c'.step = 8) ∨ (c.step = 7 ∧ c'.step = 100)) := by
  obtain ⟨s, hs, rfl, rfl⟩ := peerNext_elim G (Peer.step_handler G ⟨c, out⟩) h
  refine ⟨fun hr => by unfold pafter; rw [if_pos hr], fun h10 hr => ?_, fun hr => ?_⟩
  · rw [peerNext_ended G h10] at h
    subst hr
    cases h
  · unfold pafter
    rw [if_neg (by simpa using hr)]
    have : Peer.StepAfter c s.ctx := by
      rcases hs with h | h
      · exact h
      · exact h.1
    rcases this with h | h | h
    · exact .inl (by dsimp only; omega)
    · exact .inr (.inl ⟨h.1, by dsimp only; omega⟩)
    · exact .inr (.inr ⟨h.1, by dsimp only; omega⟩)

/-! ## What a call leaves unchanged -/

/-- What a call leaves unchanged; the hypotheses are about the fields that the current step may change. -/
theorem peerNext_frame {α : Type} {f : PeerState → α} (F : Peer.Stamps f)
    (hst : ∀ c x y, f { c with prev := x, step := y } = f c)
    (h0 : c.step = 0 → (∀ c a b d e g, f { c with index := a, sigPk := b, sigSk := d, noiseSk := e, noisePk := g } = f c) ∧
      ∀ c x, f { c with ltSk := x } = f c)
    (h1 : c.step = 1 → (∀ c x, f { c with transcript := x } = f c) ∧ (∀ c x, f { c with dev := x } = f c) ∧
      (∀ c x, x.length = c.outs.length → f { c with outs := x } = f c) ∧
      ∀ c x y, x.length = c.sigPks.length → y.length = c.noisePks.length → f { c with sigPks := x, noisePks := y } = f c)
    (h2 : c.step = 2 → (∀ c x, f { c with dev := x } = f c) ∧
      ∀ c x, x.length = c.ins.length → f { c with ins := x } = f c)
    (h3 : c.step = 3 → (∀ c x, x.length = c.outs.length → f { c with outs := x } = f c) ∧
      ∀ c x, x.length = c.shares.length → f { c with shares := x } = f c)
    (h4 : c.step = 4 → (∀ c x, f { c with transcript := x } = f c) ∧
      (∀ c x, x.length = c.outs.length → f { c with outs := x } = f c) ∧
      ∀ c x, x.length = c.commitments.length → f { c with commitments := x } = f c)
    (h5 : c.step = 5 → (∀ c x, x.length = c.ins.length → f { c with ins := x } = f c) ∧
      ∀ c x, x.length = c.xshares.length → f { c with xshares := x } = f c)
    (h6 : c.step = 6 → (∀ c x, f { c with transcript := x } = f c) ∧
      (∀ c x k, x.length = c.complaints.length → f { c with complaints := x, complaintsLen := k } = f c) ∧
      ∀ c x k, x.length = c.mine.length → f { c with mine := x, myLen := k } = f c)
    (h9 : c.step = 9 → ∀ c x, f { c with share := x } = f c)
    (h : peerNext G clock log mlock scratch rnd c input out = .ok (r, c', o)) :
    f c' = f c ∧ o.length = out.length := by
  have hw : Wp (Peer.handler G clock log mlock scratch rnd input c.step) True (fun _ s' => Peer.Keep f ⟨c, out⟩ s')
      (fun _ s' => Peer.Keep f ⟨c, out⟩ s') ⟨c, out⟩ := by
    have k : ∀ {m : H PRun Int}, Pres (Peer.Keep f) (fun r => r = 0) m →
        Wp m True (fun _ s' => Peer.Keep f ⟨c, out⟩ s') (fun _ s' => Peer.Keep f ⟨c, out⟩ s') ⟨c, out⟩ :=
      fun h => wp_of_pres h (fun _ _ h => h) fun _ _ h _ => h
    unfold Peer.handler
    split
    · obtain ⟨a, b⟩ := h0 (by assumption)
      exact k (Peer.pres_step23 F a b)
    · obtain ⟨a, b, d, e⟩ := h1 (by assumption)
      exact k (Peer.pres_step5 F a b d e)
    · obtain ⟨a, b⟩ := h2 (by assumption)
      exact k (Peer.pres_step7 F a b)
    · obtain ⟨a, b⟩ := h3 (by assumption)
      exact k (Peer.pres_step911 F G a b)
    · obtain ⟨a, b, d⟩ := h4 (by assumption)
      exact k (Peer.pres_step13 F a b d)
    · obtain ⟨a, b⟩ := h5 (by assumption)
      exact k (Peer.pres_step15 F G a b)
    · obtain ⟨a, b, d⟩ := h6 (by assumption)
      exact k (Peer.pres_step17 F a hst b d)
    · exact k (Peer.pres_step17a F fun c x => hst c c.prev x)
    · exact k (Peer.pres_step19 F)
    · exact k (Peer.pres_step21 F (h9 (by assumption)))
    · exact ⟨rfl, rfl⟩
    · exact ⟨rfl, rfl⟩
  obtain ⟨s, hs, rfl, rfl⟩ := peerNext_elim G hw h
  have hk : Peer.Keep f ⟨c, out⟩ s := hs.elim id id
  exact ⟨(hst _ _ _).trans hk.1, hk.2⟩

/-- The parameters of the session are never changed. -/
theorem peerNext_params (h : peerNext G clock log mlock scratch rnd c input out = .ok (r, c', o)) :
    c'.n = c.n ∧ c'.t = c.t ∧ c'.sid = c.sid ∧ c'.eps = c.eps ∧ c'.tpSigPk = c.tpSigPk ∧ o.length = out.length := by
  obtain ⟨e, l⟩ := peerNext_frame G (f := fun c => (c.n, c.t, c.sid, c.eps, c.tpSigPk))
    ⟨fun _ _ _ => rfl, fun _ _ _ _ => rfl⟩ (fun _ _ _ => rfl) (fun _ => ⟨fun _ _ _ _ _ _ => rfl, fun _ _ => rfl⟩)
    (fun _ => ⟨fun _ _ => rfl, fun _ _ => rfl, fun _ _ _ => rfl, fun _ _ _ _ _ => rfl⟩)
    (fun _ => ⟨fun _ _ => rfl, fun _ _ _ => rfl⟩) (fun _ => ⟨fun _ _ _ => rfl, fun _ _ _ => rfl⟩)
    (fun _ => ⟨fun _ _ => rfl, fun _ _ _ => rfl, fun _ _ _ => rfl⟩) (fun _ => ⟨fun _ _ _ => rfl, fun _ _ _ => rfl⟩)
    (fun _ => ⟨fun _ _ => rfl, fun _ _ _ _ => rfl, fun _ _ _ _ => rfl⟩) (fun _ _ _ => rfl) h
  simp only [Prod.mk.injEq] at e
  exact ⟨e.1, e.2.1, e.2.2.1, e.2.2.2.1, e.2.2.2.2, l⟩

/-- The buffers keep their sizes. -/
theorem peerNext_pwf (h : peerNext G clock log mlock scratch rnd c input out = .ok (r, c', o)) (w : PWF c) : PWF c' := by
  obtain ⟨e, -⟩ := peerNext_frame G (f := fun c => (c.lastTs.length, c.sigPks.length, c.noisePks.length, c.outs.length,
      c.ins.length, c.shares.length, c.xshares.length, c.mine.length, c.commitments.length, c.complaints.length))
    ⟨fun _ _ _ => rfl, fun _ _ _ h => by dsimp only; rw [h]⟩ (fun _ _ _ => rfl)
    (fun _ => ⟨fun _ _ _ _ _ _ => rfl, fun _ _ => rfl⟩)
    (fun _ => ⟨fun _ _ => rfl, fun _ _ => rfl, fun _ _ h => by dsimp only; rw [h],
      fun _ _ _ h h' => by dsimp only; rw [h, h']⟩)
    (fun _ => ⟨fun _ _ => rfl, fun _ _ h => by dsimp only; rw [h]⟩)
    (fun _ => ⟨fun _ _ h => by dsimp only; rw [h], fun _ _ h => by dsimp only; rw [h]⟩)
    (fun _ => ⟨fun _ _ => rfl, fun _ _ h => by dsimp only; rw [h], fun _ _ h => by dsimp only; rw [h]⟩)
    (fun _ => ⟨fun _ _ h => by dsimp only; rw [h], fun _ _ h => by dsimp only; rw [h]⟩)
    (fun _ => ⟨fun _ _ => rfl, fun _ _ _ h => by dsimp only; rw [h], fun _ _ _ h => by dsimp only; rw [h]⟩)
    (fun _ _ _ => rfl) h
  obtain ⟨hn, ht, -⟩ := peerNext_params G h
  simp only [Prod.mk.injEq] at e
  obtain ⟨e1, e2, e3, e4, e5, e6, e7, e8, e9, e10⟩ := e
  constructor
  all_goals first
    | rw [ht]; exact w.t_pos
    | rw [ht, hn]; exact w.t_lt
    | rw [hn]; exact w.n_le
    | rw [hn, e1]; exact w.lastTs
    | rw [hn, e2]; exact w.sigPks
    | rw [hn, e3]; exact w.noisePks
    | rw [hn, e4]; exact w.outs
    | rw [hn, e5]; exact w.ins
    | rw [hn, e6]; exact w.shares
    | rw [hn, e7]; exact w.xshares
    | rw [hn, e8]; exact w.mine
    | rw [hn, ht, e9]; exact w.commitments
    | rw [hn, e10]; exact w.complaints

/-- The index and the keys of the peer change only in its first step. -/
theorem peerNext_keys (h : peerNext G clock log mlock scratch rnd c input out = .ok (r, c', o)) (h0 : c.step ≠ 0) :
    c'.index = c.index ∧ c'.sigSk = c.sigSk ∧ c'.sigPk = c.sigPk ∧ c'.noiseSk = c.noiseSk ∧ c'.noisePk = c.noisePk := by
  obtain ⟨e, -⟩ := peerNext_frame G (f := fun c => (c.index, c.sigSk, c.sigPk, c.noiseSk, c.noisePk))
    ⟨fun _ _ _ => rfl, fun _ _ _ _ => rfl⟩ (fun _ _ _ => rfl) (fun h => absurd h h0)
    (fun _ => ⟨fun _ _ => rfl, fun _ _ => rfl, fun _ _ _ => rfl, fun _ _ _ _ _ => rfl⟩)
    (fun _ => ⟨fun _ _ => rfl, fun _ _ _ => rfl⟩) (fun _ => ⟨fun _ _ _ => rfl, fun _ _ _ => rfl⟩)
    (fun _ => ⟨fun _ _ => rfl, fun _ _ _ => rfl, fun _ _ _ => rfl⟩) (fun _ => ⟨fun _ _ _ => rfl, fun _ _ _ => rfl⟩)
    (fun _ => ⟨fun _ _ => rfl, fun _ _ _ _ => rfl, fun _ _ _ _ => rfl⟩) (fun _ _ _ => rfl) h
  simp only [Prod.mk.injEq] at e
  exact e

/-- The resulting share changes only in the last step. -/
theorem peerNext_share (h : peerNext G clock log mlock scratch rnd c input out = .ok (r, c', o)) (h9 : c.step ≠ 9) :
    c'.share = c.share :=
  (peerNext_frame G (f := fun c => c.share)
    ⟨fun _ _ _ => rfl, fun _ _ _ _ => rfl⟩ (fun _ _ _ => rfl) (fun _ => ⟨fun _ _ _ _ _ _ => rfl, fun _ _ => rfl⟩)
    (fun _ => ⟨fun _ _ => rfl, fun _ _ => rfl, fun _ _ _ => rfl, fun _ _ _ _ _ => rfl⟩)
    (fun _ => ⟨fun _ _ => rfl, fun _ _ _ => rfl⟩) (fun _ => ⟨fun _ _ _ => rfl, fun _ _ _ => rfl⟩)
    (fun _ => ⟨fun _ _ => rfl, fun _ _ _ => rfl, fun _ _ _ => rfl⟩) (fun _ => ⟨fun _ _ _ => rfl, fun _ _ _ => rfl⟩)
    (fun _ => ⟨fun _ _ => rfl, fun _ _ _ _ => rfl, fun _ _ _ _ => rfl⟩) (fun h => absurd h h9) h).1

/-- The received shares change only in the step that receives them. -/
theorem peerNext_xshares (h : peerNext G clock log mlock scratch rnd c input out = .ok (r, c', o)) (h5 : c.step ≠ 5) :
    c'.xshares = c.xshares :=
  (peerNext_frame G (f := fun c => c.xshares)
    ⟨fun _ _ _ => rfl, fun _ _ _ _ => rfl⟩ (fun _ _ _ => rfl) (fun _ => ⟨fun _ _ _ _ _ _ => rfl, fun _ _ => rfl⟩)
    (fun _ => ⟨fun _ _ => rfl, fun _ _ => rfl, fun _ _ _ => rfl, fun _ _ _ _ _ => rfl⟩)
    (fun _ => ⟨fun _ _ => rfl, fun _ _ _ => rfl⟩) (fun _ => ⟨fun _ _ _ => rfl, fun _ _ _ => rfl⟩)
    (fun _ => ⟨fun _ _ => rfl, fun _ _ _ => rfl, fun _ _ _ => rfl⟩) (fun h => absurd h h5)
    (fun _ => ⟨fun _ _ => rfl, fun _ _ _ _ => rfl, fun _ _ _ _ => rfl⟩) (fun _ _ _ => rfl) h).1

/-- The complaints change only in the complaint step. -/
theorem peerNext_complaints (h : peerNext G clock log mlock scratch rnd c input out = .ok (r, c', o)) (h6 : c.step ≠ 6) :
    c'.complaints = c.complaints ∧ c'.complaintsLen = c.complaintsLen ∧ c'.mine = c.mine ∧ c'.myLen = c.myLen := by
  obtain ⟨e, -⟩ := peerNext_frame G (f := fun c => (c.complaints, c.complaintsLen, c.mine, c.myLen))
    ⟨fun _ _ _ => rfl, fun _ _ _ _ => rfl⟩ (fun _ _ _ => rfl) (fun _ => ⟨fun _ _ _ _ _ _ => rfl, fun _ _ => rfl⟩)
    (fun _ => ⟨fun _ _ => rfl, fun _ _ => rfl, fun _ _ _ => rfl, fun _ _ _ _ _ => rfl⟩)
    (fun _ => ⟨fun _ _ => rfl, fun _ _ _ => rfl⟩) (fun _ => ⟨fun _ _ _ => rfl, fun _ _ _ => rfl⟩)
    (fun _ => ⟨fun _ _ => rfl, fun _ _ _ => rfl, fun _ _ _ => rfl⟩) (fun _ => ⟨fun _ _ _ => rfl, fun _ _ _ => rfl⟩)
    (fun h => absurd h h6) (fun _ _ _ => rfl) h
  simp only [Prod.mk.injEq] at e
  exact e

/-! ## The transcript -/

namespace Peer

theorem wp_of_both {α : Type} {R : PRun → PRun → Prop} {V V' : α → Prop} {m : H PRun α} {E : Int → PRun → Prop}
    {Q : α → PRun → Prop} {s : PRun} (h : Pres R V m) (h' : Err V' m) (hE : ∀ e s', R s s' → e ≠ 0 → E e s')
    (hQ : ∀ a s', R s s' → V' a → Q a s') : Wp m True E Q s :=
  (Wp.and (h s) (h' s)).mono (fun _ => trivial) (fun e s' h => hE e s' h.1 h.2) fun a s' h => hQ a s' h.1.1 h.2

theorem stamps_transcript : Stamps (fun c : PeerState => c.transcript) := ⟨fun _ _ _ => rfl, fun _ _ _ _ => rfl⟩

/-- Left with `r = 0`, the transcript was extended by the input. -/
def TrUpd (input : Bytes) (s : PRun) (r : Int) (s' : PRun) : Prop :=
  r = 0 → s'.ctx.transcript = updateTranscript s.ctx.transcript input

theorem tr_step5 {s : PRun} : Wp (step5 clock log rnd input) True (TrUpd input s) (TrUpd input s) s := by
  have F := stamps_transcript
  unfold step5
  rw [wp_bind, wp_get]
  dsimp only
  rw [wp_ite]
  refine ⟨fun _ h => absurd h (by decide), fun _ => ?_⟩
  rw [wp_ite]
  refine ⟨fun _ h => absurd h (by decide), fun _ => ?_⟩
  rw [wp_bind]
  refine wp_of_both (pres_recvTp F _ _ _ _) (err_recvTp _ _ _ _) (fun _ _ _ h h' => absurd h' h) fun r s2 h2 hr => ?_
  rw [wp_ite]
  refine ⟨fun _ h => ?_, fun _ => ?_⟩
  · omega
  rw [wp_bind, wp_transcript, wp_bind, wp_setCtx, wp_bind]
  have hb : Pres (Keep fun c => c.transcript) (fun _ => True) (H.forN s.ctx.n.toNat (step5Body clock log rnd input)) := by
    unfold step5Body initSession
    set f : PeerState → Bytes := fun c => c.transcript
    ppres [pres_setCtx fun c => rfl, pres_setOuts (fun _ _ _ => rfl) _ _, pres_setKeys (fun _ _ _ _ _ => rfl) _ _ _]
  refine wp_of_both hb (err_forN fun i => err_step5Body i) (fun _ _ _ h h' => absurd h' h) fun _ s3 h3 _ _ => ?_
  exact h3.1.trans (congrArg (updateTranscript · input) h2.1)

theorem tr_step13 {s : PRun} : Wp (step13 clock log input) True (TrUpd input s) (TrUpd input s) s := by
  have F := stamps_transcript
  unfold step13
  rw [wp_bind, wp_get]
  dsimp only
  rw [wp_ite]
  refine ⟨fun _ h => absurd h (by decide), fun _ => ?_⟩
  rw [wp_ite]
  refine ⟨fun _ h => absurd h (by decide), fun _ => ?_⟩
  rw [wp_bind]
  refine wp_of_both (R := Keep fun c => c.transcript) (pres_dump _ _ _ _) (err_dump _ _ _ _) (fun _ _ _ h h' => absurd h' h)
    fun _ s1 h1 _ => ?_
  rw [wp_bind]
  refine wp_of_both (pres_recvTp F _ _ _ _) (err_recvTp _ _ _ _) (fun _ _ _ h h' => absurd h' h) fun r s2 h2 hr => ?_
  rw [wp_ite]
  refine ⟨fun _ h => ?_, fun _ => ?_⟩
  · omega
  rw [wp_bind, wp_transcript, wp_bind]
  have hb : Pres (Keep fun c => c.transcript) (fun _ => True)
      (H.forN s.ctx.n.toNat (step13Body clock log input s.ctx.t)) := by
    unfold step13Body
    set f : PeerState → Bytes := fun c => c.transcript
    ppres [pres_encrypt (fun _ _ _ => rfl) _ _ _ _ _, pres_commitKey _ _, pres_setCommitments (fun _ _ _ => rfl) _ _]
  refine wp_of_both hb (err_forN fun i => err_step13Body _ i) (fun _ _ _ h h' => absurd h' h) fun _ s3 h3 _ _ => ?_
  exact h3.1.trans (congrArg (updateTranscript · input) (h2.1.trans h1.1))

theorem tr_step17 {s : PRun} : Wp (step17 clock log input) True (TrUpd input s) (TrUpd input s) s := by
  have F := stamps_transcript
  unfold step17
  rw [wp_bind, wp_get]
  dsimp only
  rw [wp_ite]
  refine ⟨fun _ h => absurd h (by decide), fun _ => ?_⟩
  rw [wp_ite]
  refine ⟨fun _ h => absurd h (by decide), fun _ => ?_⟩
  rw [wp_bind]
  refine wp_of_both (R := Keep fun c => c.transcript) (pres_dump _ _ _ _) (err_dump _ _ _ _) (fun _ _ _ h h' => absurd h' h)
    fun _ s1 h1 _ => ?_
  rw [wp_bind]
  refine wp_of_both (pres_recvTp F _ _ _ _) (err_recvTp _ _ _ _) (fun _ _ _ h h' => absurd h' h) fun r s2 h2 hr => ?_
  rw [wp_ite]
  refine ⟨fun _ h => ?_, fun _ => ?_⟩
  · omega
  rw [wp_bind, wp_transcript, wp_bind]
  have hb : Pres (Keep fun c => c.transcript) (fun _ => True)
      (H.forN s.ctx.n.toNat (step17Body clock log input s.ctx.n)) := by
    unfold step17Body step17Inner
    set f : PeerState → Bytes := fun c => c.transcript
    ppres [pres_addComplaint (fun _ _ _ _ => rfl) _, pres_addMine (fun _ _ _ _ => rfl) _]
  refine wp_of_both hb (err_forN fun i => err_step17Body _ i) (fun _ _ _ h h' => absurd h' h) fun _ s3 h3 _ => ?_
  have e : s3.ctx.transcript = updateTranscript s.ctx.transcript input :=
    h3.1.trans (congrArg (updateTranscript · input) (h2.1.trans h1.1))
  rw [wp_bind, wp_get, wp_ite]
  exact ⟨fun _ _ => e, fun _ _ => e⟩

end Peer

/-- A successful call extends the transcript by its input in the steps that receive a broadcast, and leaves it in the
others. -/
theorem peerNext_transcript (h : peerNext G clock log mlock scratch rnd c input out = .ok (0, c', o)) :
    c'.transcript = if hears c.step then updateTranscript c.transcript input else c.transcript := by
  by_cases hb : c.step = 1 ∨ c.step = 4 ∨ c.step = 6
  · have hw : Wp (Peer.handler G clock log mlock scratch rnd input c.step) True (Peer.TrUpd input ⟨c, out⟩)
        (Peer.TrUpd input ⟨c, out⟩) ⟨c, out⟩ := by
      rcases hb with h | h | h <;> rw [h]
      · exact Peer.tr_step5
      · exact Peer.tr_step13
      · exact Peer.tr_step17
    obtain ⟨s, hs, rfl, rfl⟩ := peerNext_elim G hw h
    have e := hs.elim (fun h => h rfl) (fun h => h rfl)
    rw [if_pos (by rcases hb with h | h | h <;> rw [h] <;> rfl)]
    exact e
  · rw [if_neg (by
      unfold hears
      simp only [Bool.or_eq_true, beq_iff_eq]
      tauto)]
    exact (peerNext_frame G (f := fun c => c.transcript)
      ⟨fun _ _ _ => rfl, fun _ _ _ _ => rfl⟩ (fun _ _ _ => rfl) (fun _ => ⟨fun _ _ _ _ _ _ => rfl, fun _ _ => rfl⟩)
      (fun h => absurd (.inl h) hb)
      (fun _ => ⟨fun _ _ => rfl, fun _ _ _ => rfl⟩) (fun _ => ⟨fun _ _ _ => rfl, fun _ _ _ => rfl⟩)
      (fun h => absurd (.inr (.inl h)) hb) (fun _ => ⟨fun _ _ _ => rfl, fun _ _ _ => rfl⟩)
      (fun h => absurd (.inr (.inr h)) hb) (fun _ _ _ => rfl) h).1

/-! ## The last steps -/

namespace Peer

/-- The last step changes the share only if it accepts the confirmation. -/
theorem share_step21 {s : PRun} : Wp (step21 clock log input) True
    (fun r s' => r ≠ 0 ∧ s'.ctx.share = s.ctx.share)
    (fun r s' => r = 0 ∧ (∃ last k, recvMsg (clock s.ctx.ticks) input 0 input.length 21 0 0xff s.ctx.tpSigPk s.ctx.sid
        s.ctx.eps s.ctx.tpLastTs = .ok (0, last, k)) ∧ input.length = 113 ∧ slice input 111 2 = [79, 75] ∧
      Dkg.finish s.ctx.n s.ctx.xshares { s.ctx.share with index := s.ctx.index } = .ok s'.ctx.share) s := by
  unfold step21
  rw [wp_bind, wp_get, wp_ite]
  refine ⟨fun _ => ⟨by decide, rfl⟩, fun hl => ?_⟩
  rw [wp_ite]
  refine ⟨fun _ => ⟨by decide, rfl⟩, fun ho => ?_⟩
  simp only [not_not, msg20Size, msg21Size] at hl ho
  rw [wp_bind, wp_dump (by omega), wp_bind]
  refine wp_recvTp (by omega) fun r last k hr => ?_
  rw [wp_ite]
  refine ⟨fun h0 => ⟨by have := recvMsg_range hr; omega, rfl⟩, fun h0 => ?_⟩
  have h0 : r = 0 := by simpa using h0
  subst h0
  rw [wp_bind, wp_lift_ok (rd_slice' (by simp only [hdrSize]; omega)), wp_ite]
  refine ⟨fun hd => ?_, fun _ => ⟨by decide, rfl⟩⟩
  rw [wp_bind, wp_get, wp_bind]
  refine wp_lift_of trivial fun x hx => ?_
  have hl2 : (slice input hdrSize 2).length = 2 := by rw [hd]; rfl
  rw [wp_bind, wp_setCtx, wp_bind, wp_setOut (by rw [hl2]; show _ ≤ s.out.length; simp only [hdrSize]; omega), wp_bind,
    wp_send (by
      show _ ≤ (splice s.out _ _).length
      rw [splice_length (by rw [hl2]; simp only [hdrSize]; omega)]; omega), wp_bind]
  have e : (splice s.out hdrSize (slice input hdrSize 2)).length = s.out.length :=
    splice_length (by rw [hl2]; simp only [hdrSize]; omega)
  rw [wp_dumpOut (by
    show _ ≤ (splice _ _ _).length
    rw [splice_length (by rw [header_length]; show _ ≤ (splice s.out _ _).length; omega)]
    show _ ≤ (splice s.out _ _).length
    rw [e, msg21Size]; omega)]
  exact ⟨rfl, ⟨last, k, hr⟩, hl, hd, hx⟩

/-- A successful step 19 sends the hash of the transcript. -/
theorem hash_step19 {s : PRun} : Wp (step19 clock log input) False
    (fun r _ => r ≠ 0)
    (fun r s' => r = 0 ∧ s'.ctx = { s.ctx with ticks := s.ctx.ticks + 1 } ∧
      s'.out = header s.ctx (clock s.ctx.ticks) 143 20 0 ++ (Hashes.generichash32 s.ctx.transcript).toList) s := by
  unfold step19
  rw [wp_bind, wp_get, wp_ite]
  refine ⟨fun _ => by show (1 : Int) ≠ 0; decide, fun hl => ?_⟩
  rw [wp_ite]
  refine ⟨fun _ => by show (2 : Int) ≠ 0; decide, fun ho => ?_⟩
  simp only [not_not, msg19Size] at hl ho
  have e : (splice s.out hdrSize (Hashes.generichash32 s.ctx.transcript).toList).length = s.out.length :=
    splice_length (by simp [hdrSize, ho])
  rw [wp_bind, wp_setOut (by simp [hdrSize, ho]), wp_bind, wp_send (by
    show _ ≤ (splice s.out _ _).length
    omega), wp_bind, wp_dumpOut (by
    show _ ≤ (splice _ _ _).length
    rw [splice_length (by rw [header_length]; show _ ≤ (splice s.out _ _).length; omega)]
    show _ ≤ (splice s.out _ _).length
    rw [e, msg19Size]; omega)]
  refine ⟨rfl, rfl, ?_⟩
  have hh := header_length s.ctx (clock s.ctx.ticks) 143 20 0
  have hz : (Hashes.generichash32 s.ctx.transcript).toList.length = 32 := by simp
  show splice (splice s.out hdrSize (Hashes.generichash32 s.ctx.transcript).toList) 0
    (header s.ctx (clock s.ctx.ticks) 143 20 0) = _
  unfold splice
  rw [hh, hz]
  have e2 : (s.out.take hdrSize).length = 111 := by simp [hdrSize, ho]
  rw [List.take_zero, List.nil_append, List.append_assoc (s.out.take hdrSize), List.drop_append, e2]
  simp [hdrSize, ho, List.drop_of_length_le]

/-- Buffers of another length are refused before anything is done. -/
theorem wp_wrong {s : PRun} (h9 : s.ctx.step ≤ 9)
    (hw : input.length ≠ peerInputSize s.ctx ∨ s.out.length ≠ peerOutputSize s.ctx) :
    Wp (handler G clock log mlock scratch rnd input s.ctx.step) False (fun e s' => (e = 1 ∨ e = 2) ∧ s' = s)
      (fun _ _ => False) s := by
  have key : ∀ (a b : ℕ) (m : H PRun Int), peerInputSize s.ctx = a → peerOutputSize s.ctx = b →
      Wp (if input.length ≠ a then ret 1 else if s.out.length ≠ b then ret 2 else m) False
        (fun e s' => (e = 1 ∨ e = 2) ∧ s' = s) (fun _ _ => False) s := by
    intro a b m ha hb
    rw [wp_ite]
    refine ⟨fun _ => ⟨.inl rfl, rfl⟩, fun h1 => ?_⟩
    rw [wp_ite]
    refine ⟨fun _ => ⟨.inr rfl, rfl⟩, fun h2 => ?_⟩
    rw [ha, hb] at hw
    tauto
  unfold handler
  split
  · rename_i h
    unfold step23
    rw [wp_bind, wp_get]
    exact key _ _ _ (by simp [peerInputSize, h]) (by simp [peerOutputSize, h])
  · rename_i h
    unfold step5
    rw [wp_bind, wp_get]
    exact key _ _ _ (by simp [peerInputSize, h]) (by simp [peerOutputSize, h])
  · rename_i h
    unfold step7
    rw [wp_bind, wp_get]
    exact key _ _ _ (by simp [peerInputSize, h]) (by simp [peerOutputSize, h])
  · rename_i h
    unfold step911
    rw [wp_bind, wp_get]
    exact key _ _ _ (by simp [peerInputSize, h]) (by simp [peerOutputSize, h])
  · rename_i h
    unfold step13
    rw [wp_bind, wp_get]
    exact key _ _ _ (by simp [peerInputSize, h]) (by simp [peerOutputSize, h])
  · rename_i h
    unfold step15
    rw [wp_bind, wp_get]
    exact key _ _ _ (by simp [peerInputSize, h]) (by simp [peerOutputSize, h])
  · rename_i h
    unfold step17
    rw [wp_bind, wp_get]
    exact key _ _ _ (by simp [peerInputSize, h]) (by simp [peerOutputSize, h])
  · rename_i h
    unfold step17a
    rw [wp_bind, wp_get]
    exact key _ _ _ (by simp [peerInputSize, h]) rfl
  · rename_i h
    unfold step19
    rw [wp_bind, wp_get]
    exact key _ _ _ (by simp [peerInputSize, h]) (by simp [peerOutputSize, h])
  · rename_i h
    unfold step21
    rw [wp_bind, wp_get]
    exact key _ _ _ (by simp [peerInputSize, h]) (by simp [peerOutputSize, h])
  · omega
  · simp only [imp_false] at *
    omega

end Peer

end Verif.TpDkg
