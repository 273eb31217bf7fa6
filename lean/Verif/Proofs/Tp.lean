import Verif.Spec.Tp
import Verif.Proofs.Wire

/-!
# Lemmas about the trusted party
-/

set_option linter.unusedSectionVars false

namespace Verif.H

variable {σ α β : Type}

/-- `m` relates the state before and after (also for early returns) by `R`, and normal results satisfy `V`. -/
def Pres (R : σ → σ → Prop) (V : α → Prop) (m : H σ α) : Prop :=
  ∀ s, Wp m True (fun _ s' => R s s') (fun a s' => R s s' ∧ V a) s

section
variable {R : σ → σ → Prop} {V : α → Prop}

theorem pres_pure (hr : ∀ s, R s s) {a : α} (h : V a) : Pres R V (pure a : H σ α) := fun s => ⟨hr s, h⟩
theorem pres_ret (hr : ∀ s, R s s) (e : Int) : Pres R V (ret e : H σ α) := fun s => hr s
theorem pres_get (hr : ∀ s, R s s) : Pres R (fun _ => True) (get : H σ σ) := fun s => ⟨hr s, trivial⟩

theorem wp_lift_of {x : C α} {U : Prop} {E : Int → σ → Prop} {Q : α → σ → Prop} {s : σ} (hU : U)
    (h : ∀ a, x = .ok a → Q a s) : Wp (lift x) U E Q s := by
  rw [wp_lift]; split
  · exact h _ rfl
  · exact hU

theorem pres_lift (hr : ∀ s, R s s) {x : C α} (h : ∀ a, x = .ok a → V a) : Pres R V (lift x : H σ α) :=
  fun s => wp_lift_of trivial fun a ha => ⟨hr s, h a ha⟩

theorem pres_modify {f : σ → σ} (h : ∀ s, R s (f s)) : Pres R (fun _ => True) (modify f) := fun s => ⟨h s, trivial⟩

theorem Pres.mono {V' : α → Prop} {m : H σ α} (h : Pres R V m) (hv : ∀ a, V a → V' a) : Pres R V' m :=
  fun s => (h s).mono id (fun _ _ h => h) fun a _ h => ⟨h.1, hv a h.2⟩

theorem Pres.any {m : H σ α} (h : Pres R V m) : Pres R (fun _ => True) m := h.mono fun _ _ => trivial

theorem pres_bind (ht : ∀ a b c, R a b → R b c → R a c) {V' : β → Prop} {m : H σ α} {f : α → H σ β}
    (hm : Pres R V m) (hf : ∀ a, V a → Pres R V' (f a)) : Pres R V' (m >>= f) := fun s => by
  rw [wp_bind]
  refine (hm s).mono id (fun _ _ h => h) fun a s' h => ?_
  exact (hf a h.2 s').mono id (fun _ _ h' => ht _ _ _ h.1 h') (fun _ _ h' => ⟨ht _ _ _ h.1 h'.1, h'.2⟩)

theorem pres_ite {p : Prop} [Decidable p] {m m' : H σ α} (h : p → Pres R V m) (h' : ¬ p → Pres R V m') :
    Pres R V (if p then m else m') := by
  split
  · exact h ‹_›
  · exact h' ‹_›

theorem pres_loop (hr : ∀ s, R s s) (ht : ∀ a b c, R a b → R b c → R a c) {body : ℕ → H σ Unit} {N : ℕ}
    (hb : ∀ i < N, Pres R (fun _ => True) (body i)) : ∀ m i, i + m ≤ N → Pres R (fun _ => True) (loop body m i)
  | 0, i, _ => pres_pure hr trivial
  | m + 1, i, h => pres_bind ht (hb i (by omega)) fun _ _ => pres_loop hr ht hb m (i + 1) (by omega)

theorem pres_forN (hr : ∀ s, R s s) (ht : ∀ a b c, R a b → R b c → R a c) {n : ℕ} {body : ℕ → H σ Unit}
    (hb : ∀ i < n, Pres R (fun _ => True) (body i)) : Pres R (fun _ => True) (forN n body) :=
  pres_loop hr ht hb n 0 (by omega)

theorem Wp.and_pres {m : H σ α} {U : Prop} {E : Int → σ → Prop} {Q : α → σ → Prop} {s : σ} (h : Wp m U E Q s)
    (hp : Pres R V m) : Wp m U (fun e s' => E e s' ∧ R s s') (fun a s' => Q a s' ∧ R s s' ∧ V a) s := by
  have := hp s
  unfold Wp at *
  split <;> simp_all

end

theorem Wp.and {m : H σ α} {U U' : Prop} {E E' : Int → σ → Prop} {Q Q' : α → σ → Prop} {s : σ} (h : Wp m U E Q s)
    (h' : Wp m U' E' Q' s) : Wp m (U ∧ U') (fun e s' => E e s' ∧ E' e s') (fun a s' => Q a s' ∧ Q' a s') s := by
  unfold Wp at *
  split <;> simp_all

theorem Wp.and' {m : H σ α} {U : Prop} {E E' : Int → σ → Prop} {Q Q' : α → σ → Prop} {s : σ} (h : Wp m U E Q s)
    (h' : Wp m True E' Q' s) : Wp m U (fun e s' => E e s' ∧ E' e s') (fun a s' => Q a s' ∧ Q' a s') s :=
  (h.and h').mono (fun h => h.1) (fun _ _ h => h) (fun _ _ h => h)

theorem result_eq {m : H σ Int} {s s' : σ} {r : Int} (h : m.result s = .ok (r, s')) :
    m s = .ok (.ok r, s') ∨ m s = .ok (.error r, s') := by
  unfold result at h
  cases hm : m s with
  | ok p =>
    obtain ⟨x, s''⟩ := p
    rw [hm] at h
    cases x <;> simp_all
  | ub u => rw [hm] at h; simp at h

/-- From a triple to the result of the function. -/
theorem Wp.elim {m : H σ Int} {U : Prop} {E : Int → σ → Prop} {Q : Int → σ → Prop} {s s' : σ} {r : Int}
    (h : Wp m U E Q s) (hr : m.result s = .ok (r, s')) : E r s' ∨ Q r s' := by
  unfold Wp at h
  rcases result_eq hr with e | e <;> rw [e] at h
  · exact .inr h
  · exact .inl h

theorem Wp.safe {m : H σ α} {E : Int → σ → Prop} {Q : α → σ → Prop} {s : σ} (h : Wp m False E Q s) :
    (m s).Safe := by
  unfold Wp at h
  cases hm : m s with
  | ok p => exact ⟨p, rfl⟩
  | ub u => rw [hm] at h; exact h.elim

theorem Wp.result_safe {m : H σ Int} {E : Int → σ → Prop} {Q : Int → σ → Prop} {s : σ} (h : Wp m False E Q s) :
    (m.result s).Safe := by
  obtain ⟨⟨x, s'⟩, hm⟩ := h.safe
  unfold result
  rw [hm]
  cases x
  · exact ⟨_, rfl⟩
  · exact ⟨_, rfl⟩

end Verif.H

namespace Verif.TpDkg

open H Wire Spec.Wire

section Helpers

variable {U : Prop} {E : Int → Run → Prop} {s : Run}

theorem wp_dump {Q : Unit → Run → Prop} {log : Bool} {buf : Bytes} {off len : ℕ} (h : off + len ≤ buf.length) :
    Wp (dump log buf off len) U E Q s ↔ Q () s := by
  unfold dump
  split
  · rw [wp_bind, wp_lift_ok (rd_ok h), wp_pure]
  · rfl

theorem wp_setCtx {Q : Unit → Run → Prop} (f : TP → TP) :
    Wp (setCtx f) U E Q s ↔ Q () { s with ctx := f s.ctx } := Iff.rfl

/-- The context after a report. -/
def report (ctx : TP) (c : Cheater) : TP :=
  { ctx with cheaters := ctx.cheaters.set ctx.cheaterLen c, cheaterLen := ctx.cheaterLen + 1 }

theorem wp_addCheaterIx {Q : Unit → Run → Prop} {step error : Int} {peer other : UInt8} {inv : Option Int} {code : Int}
    (hl : s.ctx.cheaterMax ≤ s.ctx.cheaters.length) (hE : s.ctx.cheaterMax ≤ s.ctx.cheaterLen → E code s)
    (hQ : s.ctx.cheaterLen < s.ctx.cheaterMax → ∀ k, (∀ i, inv = some i → k = i) →
      Q () { s with ctx := report s.ctx ⟨step, error, peer, other, k⟩ }) :
    Wp (addCheaterIx step error peer other inv code) U E Q s := by
  unfold addCheaterIx
  rw [wp_bind, wp_get, wp_ite]
  refine ⟨fun h => hE h, fun h => ?_⟩
  have h1 : s.ctx.cheaterLen < s.ctx.cheaterMax := by omega
  have h2 : s.ctx.cheaterLen < s.ctx.cheaters.length := by omega
  rw [wp_bind, wp_lift_ok (ld_ok h2), wp_bind, wp_lift_ok (st_ok h2), wp_setCtx]
  exact hQ h1 _ (by rintro i rfl; rfl)

theorem wp_addCheater {Q : Unit → Run → Prop} {step error : Int} {peer other : UInt8} {code : Int}
    (hl : s.ctx.cheaterMax ≤ s.ctx.cheaters.length) (hE : s.ctx.cheaterMax ≤ s.ctx.cheaterLen → E code s)
    (hQ : s.ctx.cheaterLen < s.ctx.cheaterMax → ∀ k, Q () { s with ctx := report s.ctx ⟨step, error, peer, other, k⟩ }) :
    Wp (addCheater step error peer other code) U E Q s :=
  wp_addCheaterIx hl hE fun h k _ => hQ h k

variable [Signing]

/-- The context after the reception of a message from peer `i`. -/
def received (ctx : TP) (i : ℕ) (last : UInt64) (k : ℕ) : TP :=
  { ctx with lastTs := ctx.lastTs.set i last, ticks := ctx.ticks + k }

theorem wp_tpRecv {Q : Int → Run → Prop} {clock : ℕ → UInt64} {input : Bytes} {off len : ℕ} {msgno frm rcp : UInt8}
    {pk : B32} {i : ℕ} (hb : off + len ≤ input.length) (hl : 111 ≤ len) (hi : i < s.ctx.lastTs.length)
    (hQ : ∀ r last k, recvMsg (clock s.ctx.ticks) input off len msgno frm rcp pk s.ctx.sid s.ctx.eps s.ctx.lastTs[i] =
      .ok (r, last, k) → Q r { s with ctx := received s.ctx i last k }) :
    Wp (tpRecv clock input off len msgno frm rcp pk i) U E Q s := by
  obtain ⟨⟨r, last, k⟩, hr⟩ := recvMsg_safe (now := clock s.ctx.ticks) (msgno := msgno) (frm := frm) (rcp := rcp)
    (pk := pk) (sid := s.ctx.sid) (eps := s.ctx.eps) (last := s.ctx.lastTs[i]) hb hl
  unfold tpRecv
  rw [wp_bind, wp_get, wp_bind, wp_lift_ok (ld_ok hi), wp_bind, wp_lift_ok hr]
  dsimp only
  rw [wp_bind, wp_lift_ok (st_ok hi), wp_bind, wp_setCtx, wp_pure]
  exact hQ r last k hr

theorem tpHeader_length (ctx : TP) (now : UInt64) (len : ℕ) (msgno rcp : UInt8) :
    (tpHeader ctx now len msgno rcp).length = 111 := by
  unfold tpHeader; rw [encode_length]; rfl

theorem wp_tpSend {Q : Unit → Run → Prop} {clock : ℕ → UInt64} {off len : ℕ} {msgno rcp : UInt8}
    (hb : off + 111 ≤ s.out.length) :
    Wp (tpSend clock off len msgno rcp) U E Q s ↔
      Q () { s with
        out := s.out.take off ++ (tpHeader s.ctx (clock s.ctx.ticks) len msgno rcp ++ s.out.drop (off + 111))
        ctx := { s.ctx with ticks := s.ctx.ticks + 1 } } := by
  unfold tpSend
  rw [wp_bind, wp_get, wp_bind, wp_lift_ok (sendMsg_eq hb), wp_modify]
  rfl

theorem wp_copyOut {Q : Unit → Run → Prop} {input : Bytes} {off len : ℕ} (h1 : off + len ≤ input.length)
    (h2 : s.w + len ≤ s.out.length) :
    Wp (copyOut input off len) U E Q s ↔
      Q () { s with
        out := s.out.take s.w ++ (input.drop off).take len ++ s.out.drop (s.w + len)
        w := s.w + len } := by
  have hl : ((input.drop off).take len).length = len := by simp; omega
  unfold copyOut
  rw [wp_bind, wp_get, wp_bind, wp_lift_ok (rd_ok h1), wp_bind, wp_lift_ok (wr_ok (by rw [hl]; exact h2)), wp_modify,
    hl]

theorem wp_setSigPk {Q : Unit → Run → Prop} {i : ℕ} {pk : B32} (hi : i < s.ctx.sigPks.length) :
    Wp (setSigPk i pk) U E Q s ↔ Q () { s with ctx := { s.ctx with sigPks := s.ctx.sigPks.set i pk } } := by
  unfold setSigPk
  rw [wp_bind, wp_get, wp_bind, wp_lift_ok (st_ok hi), wp_setCtx]

theorem wp_setCommitments {Q : Unit → Run → Prop} {off : ℕ} {data : List B32}
    (hi : off + data.length ≤ s.ctx.commitments.length) :
    Wp (setCommitments off data) U E Q s ↔ Q () { s with ctx := { s.ctx with
      commitments := s.ctx.commitments.take off ++ data ++ s.ctx.commitments.drop (off + data.length) } } := by
  unfold setCommitments
  rw [wp_bind, wp_get, wp_bind, wp_lift_ok (wr_ok hi), wp_setCtx]

theorem wp_addComplaint {Q : Unit → Run → Prop} {p : UInt16} (hi : s.ctx.complaintsLen.toNat < s.ctx.complaints.length) :
    Wp (addComplaint p) U E Q s ↔ Q () { s with ctx := { s.ctx with
      complaints := s.ctx.complaints.set s.ctx.complaintsLen.toNat p
      complaintsLen := s.ctx.complaintsLen + 1 } } := by
  unfold addComplaint
  rw [wp_bind, wp_get, wp_bind, wp_lift_ok (st_ok hi), wp_setCtx]

theorem wp_setOut {Q : Unit → Run → Prop} {off : ℕ} {b : Bytes} (hi : off + b.length ≤ s.out.length) :
    Wp (setOut off b) U E Q s ↔ Q () { s with out := s.out.take off ++ b ++ s.out.drop (off + b.length) } := by
  unfold setOut
  rw [wp_bind, wp_get, wp_bind, wp_lift_ok (wr_ok hi), wp_modify]

theorem wp_keepShares {Q : Unit → Run → Prop} {b : Bytes} (hi : b.length ≤ s.ctx.encShares.length) :
    Wp (keepShares b) U E Q s ↔ Q () { s with ctx := { s.ctx with
      encShares := b ++ s.ctx.encShares.drop b.length } } := by
  unfold keepShares
  rw [wp_bind, wp_get, wp_bind, wp_lift_ok (wr_ok (by omega)), wp_setCtx]
  simp

theorem wp_sigPkOf {Q : B32 → Run → Prop} {i : ℕ} (hi : i < s.ctx.sigPks.length) :
    Wp (sigPkOf i) U E Q s ↔ Q s.ctx.sigPks[i] s := by
  unfold sigPkOf
  rw [wp_bind, wp_get, wp_lift_ok (ld_ok hi)]

theorem wp_noCheaters {Q : Unit → Run → Prop} {code : Int} :
    Wp (noCheaters code) U E Q s ↔ (0 < s.ctx.cheaterLen → E code s) ∧ (s.ctx.cheaterLen = 0 → Q () s) := by
  unfold noCheaters
  rw [wp_bind, wp_get, wp_ite, wp_ret, wp_pure]
  refine and_congr_right fun _ => ?_
  simp

end Helpers

/-! ## Relations kept by the steps -/

/-- A relation between states that the common operations of the steps keep; new reports satisfy `P`. -/
structure Frame (P : Cheater → Prop) (R : Run → Run → Prop) : Prop where
  refl : ∀ s, R s s
  trans : ∀ a b c, R a b → R b c → R a c
  recv : ∀ s l k, l.length = s.ctx.lastTs.length → s.ctx.ticks ≤ k →
    R s { s with ctx := { s.ctx with lastTs := l, ticks := k } }
  cheat : ∀ s c, P c → s.ctx.cheaterLen < s.ctx.cheaterMax → s.ctx.cheaterLen < s.ctx.cheaters.length →
    R s { s with ctx := report s.ctx c }
  out : ∀ s o w, o.length = s.out.length → R s { s with out := o, w := w }
  loc : ∀ s l r, R s { s with loc := l, r := r }

section Pres

variable {P : Cheater → Prop} {R : Run → Run → Prop} (F : Frame P R)

include F

theorem pres_dump (log : Bool) (buf : Bytes) (off len : ℕ) : Pres R (fun _ => True) (dump log buf off len) := by
  unfold dump
  exact pres_ite (fun _ => pres_bind F.trans (pres_lift (V := fun _ => True) F.refl fun _ _ => trivial)
    fun _ _ => pres_pure F.refl trivial) fun _ => pres_pure F.refl trivial

theorem pres_addCheaterIx {step error : Int} {peer other : UInt8} {inv : Option Int} {code : Int}
    (hP : ∀ k, (∀ i, inv = some i → k = i) → P ⟨step, error, peer, other, k⟩) :
    Pres R (fun _ => True) (addCheaterIx step error peer other inv code) := by
  intro s
  unfold addCheaterIx
  rw [wp_bind, wp_get, wp_ite]
  refine ⟨fun _ => F.refl s, fun h => ?_⟩
  rw [wp_bind]
  refine wp_lift_of trivial fun c hc => ?_
  rw [wp_bind]
  refine wp_lift_of trivial fun cs hcs => ?_
  unfold st at hcs
  split at hcs
  · rename_i h2
    cases hcs
    rw [wp_setCtx]
    refine ⟨F.cheat s ⟨step, error, peer, other, inv.getD c.invalidIndex⟩ (hP _ ?_) (by omega) h2, trivial⟩
    rintro i rfl; rfl
  · cases hcs

theorem pres_addCheater {step error : Int} {peer other : UInt8} {code : Int}
    (hP : ∀ k, P ⟨step, error, peer, other, k⟩) :
    Pres R (fun _ => True) (addCheater step error peer other code) := pres_addCheaterIx F fun k _ => hP k

theorem pres_noCheaters (code : Int) : Pres R (fun _ => True) (noCheaters code) :=
  pres_bind F.trans (pres_get F.refl) fun _ _ => pres_ite (fun _ => pres_ret F.refl _) fun _ => pres_pure F.refl trivial

theorem pres_sigPkOf (i : ℕ) : Pres R (fun _ => True) (sigPkOf i) :=
  pres_bind F.trans (pres_get F.refl) fun _ _ => pres_lift F.refl fun _ _ => trivial

variable [Signing]

omit F in
theorem recvMsg_range {now : UInt64} {buf : Bytes} {off len : ℕ} {msgno frm rcp : UInt8} {pk sid : B32}
    {eps last last' : UInt64} {r : Int} {k : ℕ}
    (h : recvMsg now buf off len msgno frm rcp pk sid eps last = .ok (r, last', k)) : 0 ≤ r ∧ r ≤ 7 := by
  unfold recvMsg at h
  simp only [C.bind_eq_ok] at h
  obtain ⟨l, _, h⟩ := h
  split at h
  · cases h; decide
  simp only [C.bind_eq_ok] at h
  obtain ⟨l, _, h⟩ := h
  split at h
  · cases h; decide
  simp only [C.bind_eq_ok] at h
  obtain ⟨l, _, h⟩ := h
  split at h
  · cases h; decide
  simp only [C.bind_eq_ok] at h
  obtain ⟨l, _, h⟩ := h
  split at h
  · cases h; decide
  simp only [C.bind_eq_ok] at h
  obtain ⟨l, _, h⟩ := h
  split at h
  · cases h; decide
  simp only [C.bind_eq_ok] at h
  obtain ⟨l, _, h⟩ := h
  split at h
  · cases h; decide
  split at h
  · cases h
  simp only [C.bind_eq_ok] at h
  obtain ⟨l, _, _, _, _, _, h⟩ := h
  split at h <;> cases h <;> decide

omit F in
theorem recvMsg_from {now : UInt64} {buf : Bytes} {off len : ℕ} {msgno frm rcp : UInt8} {pk sid : B32}
    {eps last last' : UInt64} {k : ℕ}
    (h : recvMsg now buf off len msgno frm rcp pk sid eps last = .ok (0, last', k)) : ld buf (off + 69) = .ok frm := by
  unfold recvMsg at h
  simp only [C.bind_eq_ok] at h
  obtain ⟨l, _, h⟩ := h
  split at h
  · cases h
  simp only [C.bind_eq_ok] at h
  obtain ⟨l, _, h⟩ := h
  split at h
  · cases h
  simp only [C.bind_eq_ok] at h
  obtain ⟨f, hf, h⟩ := h
  split at h
  · cases h
  · rw [hf]; simp_all

/-- The results of `recv_msg`: a code, and for an accepted message the sender. -/
def RecvResult (input : Bytes) (off : ℕ) (frm : UInt8) (r : Int) : Prop :=
  (0 ≤ r ∧ r ≤ 7) ∧ (r = 0 → ld input (off + 69) = .ok frm)

theorem pres_tpRecv (clock : ℕ → UInt64) (input : Bytes) (off len : ℕ) (msgno frm rcp : UInt8) (pk : B32) (i : ℕ) :
    Pres R (RecvResult input off frm) (tpRecv clock input off len msgno frm rcp pk i) := by
  intro s
  unfold tpRecv
  rw [wp_bind, wp_get, wp_bind]
  refine wp_lift_of trivial fun last hl => ?_
  rw [wp_bind]
  refine wp_lift_of trivial fun x hx => ?_
  obtain ⟨r, last', k⟩ := x
  dsimp only
  rw [wp_bind]
  refine wp_lift_of trivial fun lt hlt => ?_
  rw [wp_bind, wp_setCtx, wp_pure]
  refine ⟨F.recv s lt _ ?_ (Nat.le_add_right _ _), recvMsg_range hx,
    fun h => recvMsg_from (h ▸ hx)⟩
  unfold st at hlt
  split at hlt
  · cases hlt; simp
  · cases hlt

theorem pres_tpSend (clock : ℕ → UInt64) (off len : ℕ) (msgno rcp : UInt8) :
    Pres R (fun _ => True) (tpSend clock off len msgno rcp) := by
  intro s
  unfold tpSend
  rw [wp_bind, wp_get, wp_bind]
  refine wp_lift_of trivial fun o ho => ?_
  rw [wp_modify]
  have hl : o.length = s.out.length := by
    unfold sendMsg at ho
    simp only [C.bind_eq_ok] at ho
    obtain ⟨b1, h1, b2, h2, b3, h3, b4, h4, b5, h5, b6, h6, b7, h7, h8⟩ := ho
    rw [wr_length h8, wr_length h6, wr_length h5, wr_length h4, wr_length h3, wr_length h2, wr_length h1]
  have h1 := F.out s o s.w hl
  refine ⟨F.trans _ _ _ h1 ?_, trivial⟩
  exact F.recv { s with out := o } s.ctx.lastTs (s.ctx.ticks + 1) rfl (Nat.le_succ _)

theorem pres_copyOut (input : Bytes) (off len : ℕ) : Pres R (fun _ => True) (copyOut input off len) := by
  intro s
  unfold copyOut
  rw [wp_bind, wp_get, wp_bind]
  refine wp_lift_of trivial fun m _ => ?_
  rw [wp_bind]
  refine wp_lift_of trivial fun o ho => ?_
  rw [wp_modify]
  exact ⟨F.out s o _ (wr_length ho), trivial⟩

theorem pres_setOut (off : ℕ) (b : Bytes) : Pres R (fun _ => True) (setOut off b) := by
  intro s
  unfold setOut
  rw [wp_bind, wp_get, wp_bind]
  refine wp_lift_of trivial fun o ho => ?_
  rw [wp_modify]
  exact ⟨F.out s o s.w (wr_length ho), trivial⟩

omit F in
theorem pres_tpTranscript [Hashes] (htr : ∀ s tr, R s { s with ctx := { s.ctx with transcript := tr } }) :
    Pres R (fun _ => True) tpTranscript := pres_modify fun s => htr s _

/-! ### The handlers -/

theorem pres_tp1 (clock : ℕ → UInt64) (log : Bool) (input : Bytes) : Pres R (fun r => r = 0) (tp1 clock log input) := by
  unfold tp1
  refine pres_bind F.trans (pres_get F.refl) fun s _ => pres_ite (fun _ => pres_ret F.refl _) fun _ =>
    pres_ite (fun _ => pres_ret F.refl _) fun _ => ?_
  refine pres_bind F.trans (pres_forN F.refl F.trans fun i _ => ?_) fun _ _ => pres_pure F.refl rfl
  exact pres_bind F.trans (pres_tpSend F _ _ _ _ _) fun _ _ => pres_bind F.trans (pres_get F.refl) fun _ _ =>
    pres_dump F _ _ _ _

omit F [Signing] in
theorem lt255 {n : UInt8} {i : ℕ} (h : i < n.toNat) : i < 255 := by have := n.toNat_lt; omega

/-- A code of `recv_msg`. -/
def RecvCode (r : Int) : Prop := 1 ≤ r ∧ r ≤ 7

omit F in
theorem recvCode {input : Bytes} {off : ℕ} {frm : UInt8} {r : Int} (h : RecvResult input off frm r) (h0 : r ≠ 0) :
    RecvCode r := ⟨by have := h.1; omega, h.1.2⟩

omit F [Signing] in
theorem pres_lift' {σ α : Type} {R : σ → σ → Prop} (hr : ∀ s, R s s) {x : C α} :
    Pres R (fun _ => True) (lift x : H σ α) := pres_lift hr fun _ _ => trivial

omit F [Signing] in
theorem pres_ub {σ α : Type} {R : σ → σ → Prop} {V : α → Prop} {u : UB} :
    Pres R V (lift (.ub u) : H σ α) := fun _ => trivial

omit F in
theorem pres_verify {σ G : Type} [Ristretto G] {R : σ → σ → Prop} (hr : ∀ s, R s s) {scratch : B32} {t self i : UInt8}
    {cs : List B32} {share : Share} :
    Pres R (fun r => r = -1 ∨ r = 0 ∨ r = 1) (lift (Dkg.verifyCommitment G scratch t self i cs share) : H σ Int) := by
  refine pres_lift hr fun a ha => ?_
  unfold Dkg.verifyCommitment at ha
  split at ha
  · cases ha; simp
  · simp only [C.bind_eq_ok] at ha
    obtain ⟨_, _, r, _, ha⟩ := ha
    cases r with
    | none => cases ha; simp
    | some v => dsimp only at ha; split at ha <;> cases ha <;> simp

set_option hygiene false in
/-- Applies the rules for `Pres` as far as possible. -/
macro "pres" "[" ts:term,* "]" : tactic => do
  let alts ← ts.getElems.mapM fun t => `(tactic| exact $t)
  `(tactic| repeat' first
  | (first $[| $alts:tactic]*)
  | with_reducible exact pres_ret F.refl _
  | with_reducible exact pres_dump F _ _ _ _
  | with_reducible exact pres_noCheaters F _
  | with_reducible exact pres_sigPkOf F _
  | with_reducible exact pres_tpRecv F _ _ _ _ _ _ _ _ _
  | with_reducible exact pres_tpSend F _ _ _ _ _
  | with_reducible exact pres_copyOut F _ _ _
  | with_reducible exact pres_setOut F _ _
  | with_reducible exact pres_verify F.refl
  | with_reducible exact pres_get F.refl
  | with_reducible exact pres_pure (V := fun _ => True) F.refl trivial
  | with_reducible exact pres_pure F.refl rfl
  | with_reducible exact pres_lift' F.refl
  | with_reducible exact pres_ub
  | with_reducible refine pres_addCheater F fun k => ?_
  | with_reducible refine pres_addCheaterIx F fun k hk => ?_
  | with_reducible refine pres_ite (fun hc => ?_) fun hc => ?_
  | with_reducible refine pres_forN F.refl F.trans fun i hi => ?_
  | with_reducible apply pres_bind F.trans
  | intro a ha)

theorem pres_setSigPk (hpk : ∀ s l, l.length = s.ctx.sigPks.length → R s { s with ctx := { s.ctx with sigPks := l } })
    (i : ℕ) (pk : B32) : Pres R (fun _ => True) (setSigPk i pk) := by
  intro s
  unfold setSigPk
  rw [wp_bind, wp_get, wp_bind]
  refine wp_lift_of trivial fun l hl => ?_
  rw [wp_setCtx]
  refine ⟨hpk s l ?_, trivial⟩
  unfold st at hl
  split at hl
  · cases hl; simp
  · cases hl

theorem pres_tp4 [Hashes] {clock : ℕ → UInt64} {log : Bool} {input : Bytes}
    (hP : ∀ i < 255, ∀ r k, RecvCode r → P ⟨4, 64 + r, idx i, 0xff, k⟩)
    (hpk : ∀ s l, l.length = s.ctx.sigPks.length → R s { s with ctx := { s.ctx with sigPks := l } })
    (htr : ∀ s tr, R s { s with ctx := { s.ctx with transcript := tr } }) :
    Pres R (fun r => r = 0) (tp4 clock log input) := by
  unfold tp4 tp4Body
  pres [pres_setSigPk F hpk _ _, pres_tpTranscript htr, pres_modify fun s => F.out s s.out _ rfl]
  exact hP _ (lt255 ‹_›) _ _ (recvCode ‹_› ‹_›)

theorem pres_tp68 {clock : ℕ → UInt64} {log : Bool} {input : Bytes} (s : Run)
    (hP : ∀ i < 255, ∀ j < 255, ∀ r k, RecvCode r →
      P ⟨6 + ((s.ctx.step : Int) - 1) * 2, 64 + r, idx j, idx i, k⟩) :
    Wp (tp68 clock log input) True (fun _ s' => R s s') (fun r s' => R s s' ∧ r = 0) s := by
  unfold tp68 tp68Body
  rw [wp_bind, wp_get]
  generalize hm : s.ctx.step = m at hP ⊢
  generalize s.ctx.n = n
  generalize s.out = o
  clear hm
  revert s
  change Pres R (fun r => r = 0) _
  pres [pres_modify fun s => F.out s s.out _ rfl]
  exact hP _ (lt255 ‹_›) _ (lt255 ‹_›) _ _ (recvCode ‹_› ‹_›)

theorem pres_setCommitments
    (hcm : ∀ s l, l.length = s.ctx.commitments.length → R s { s with ctx := { s.ctx with commitments := l } })
    (i : ℕ) (d : List B32) : Pres R (fun _ => True) (setCommitments i d) := by
  intro s
  unfold setCommitments
  rw [wp_bind, wp_get, wp_bind]
  refine wp_lift_of trivial fun l hl => ?_
  rw [wp_setCtx]
  exact ⟨hcm s l (wr_length hl), trivial⟩

theorem pres_tp12 [Hashes] {clock : ℕ → UInt64} {log : Bool} {input : Bytes}
    (hP : ∀ i < 255, ∀ r k, RecvCode r → P ⟨12, 64 + r, idx i, 0xff, k⟩)
    (hcm : ∀ s l, l.length = s.ctx.commitments.length → R s { s with ctx := { s.ctx with commitments := l } })
    (htr : ∀ s tr, R s { s with ctx := { s.ctx with transcript := tr } }) :
    Pres R (fun r => r = 0) (tp12 clock log input) := by
  unfold tp12 tp12Body
  pres [pres_setCommitments F hcm _ _, pres_tpTranscript htr, pres_modify fun s => F.out s s.out _ rfl]
  exact hP _ (lt255 ‹_›) _ _ (recvCode ‹_› ‹_›)

theorem pres_keepShares
    (hes : ∀ s l, l.length = s.ctx.encShares.length → R s { s with ctx := { s.ctx with encShares := l } })
    (d : Bytes) : Pres R (fun _ => True) (keepShares d) := by
  intro s
  unfold keepShares
  rw [wp_bind, wp_get, wp_bind]
  refine wp_lift_of trivial fun l hl => ?_
  rw [wp_setCtx]
  exact ⟨hes s l (wr_length hl), trivial⟩

theorem pres_tp14 {clock : ℕ → UInt64} {log : Bool} {input : Bytes}
    (hP : ∀ i < 255, ∀ j < 255, ∀ r k, RecvCode r → P ⟨14, 64 + r, idx j, idx i, k⟩)
    (hes : ∀ s l, l.length = s.ctx.encShares.length → R s { s with ctx := { s.ctx with encShares := l } }) :
    Pres R (fun r => r = 0) (tp14 clock log input) := by
  unfold tp14 tp14Body
  pres [pres_keepShares F hes _, pres_modify fun s => F.out s s.out _ rfl]
  exact hP _ (lt255 ‹_›) _ (lt255 ‹_›) _ _ (recvCode ‹_› ‹_›)

theorem pres_addComplaint
    (hco : ∀ s l k, l.length = s.ctx.complaints.length →
      R s { s with ctx := { s.ctx with complaints := l, complaintsLen := k } })
    (d : UInt16) : Pres R (fun _ => True) (addComplaint d) := by
  intro s
  unfold addComplaint
  rw [wp_bind, wp_get, wp_bind]
  refine wp_lift_of trivial fun l hl => ?_
  rw [wp_setCtx]
  refine ⟨hco s l _ ?_, trivial⟩
  unfold st at hl
  split at hl
  · cases hl; simp
  · cases hl

theorem pres_tp16 [Hashes] {clock : ℕ → UInt64} {log : Bool} {input : Bytes}
    (hP : ∀ i < 255, ∀ r k, RecvCode r → P ⟨16, 64 + r, idx i, 0xff, k⟩)
    (hP7 : ∀ i < 255, ∀ x k, P ⟨16, 7, idx i, x, k⟩) (hP8 : ∀ i < 255, ∀ x k, P ⟨16, 8, idx i, x, k⟩)
    (hP6 : ∀ k, P ⟨16, 6, 0xfe, 0xfe, k⟩)
    (hco : ∀ s l k, l.length = s.ctx.complaints.length →
      R s { s with ctx := { s.ctx with complaints := l, complaintsLen := k } })
    (htr : ∀ s tr, R s { s with ctx := { s.ctx with transcript := tr } }) :
    Pres R (fun r => r = 0) (tp16 clock log input) := by
  unfold tp16 tp16Body tp16Inner
  pres [pres_addComplaint F hco _, pres_tpTranscript htr, pres_modify fun s => F.out s s.out _ rfl,
    (pres_modify fun s => hco s s.ctx.complaints _ rfl)]
  all_goals first
    | exact hP _ (lt255 ‹_›) _ _ (recvCode ‹_› ‹_›)
    | exact hP7 _ (lt255 ‹_›) _ _
    | exact hP8 _ (lt255 ‹_›) _ _
    | exact hP6 _

theorem pres_tp18Share (G : Type) [Ristretto G] [NoiseCrypto] [Mac] {clock : ℕ → UInt64} {log : Bool} {scratch : B32}
    {accused complainer : UInt8} {m8 : ℕ} {key : B32}
    (hPm : ∀ r k, RecvCode r → P ⟨18, 16 + r, accused, complainer, k⟩)
    (hP3 : ∀ k, P ⟨18, 3, accused, complainer, k⟩) (hP4 : ∀ k, P ⟨18, 4, accused, complainer, k⟩)
    (hP5 : ∀ k, P ⟨18, 5, accused, complainer, k⟩)
    (hPv : ∀ r k, r = -1 ∨ r = 0 ∨ r = 1 → P ⟨18, 128 + r, accused, complainer, k⟩) :
    Pres R (fun _ => True) (tp18Share G clock log scratch accused complainer m8 key) := by
  unfold tp18Share
  have hm : ∀ now es off len msgno frm rcp pk sid eps last, Pres R (fun x => 0 ≤ x.1 ∧ x.1 ≤ 7)
      (lift (recvMsg now es off len msgno frm rcp pk sid eps last) : H Run (Int × UInt64 × ℕ)) :=
    fun _ _ _ _ _ _ _ _ _ _ _ => pres_lift F.refl fun a ha => recvMsg_range (r := a.1) (last' := a.2.1) (k := a.2.2) ha
  pres [hm _ _ _ _ _ _ _ _ _ _ _, pres_modify fun s => F.recv s s.ctx.lastTs _ rfl (Nat.le_add_right _ _)]
  · exact hPm _ _ ⟨by omega, by omega⟩
  · exact hP3 _
  split
  · pres [pres_get F.refl]
    exact hP4 _
  · pres [pres_get F.refl]
    · exact hP5 _
    all_goals exact hPv _ _ ‹_›

theorem pres_tp18Rest (hP7 : ∀ a b k, P ⟨18, 7, a, b, k⟩) : ∀ cs, Pres R (fun _ => True) (tp18Rest cs)
  | [] => pres_pure F.refl trivial
  | c :: cs => by
    unfold tp18Rest
    have ih := pres_tp18Rest hP7 cs
    pres [ih]
    exact hP7 _ _ _

/-- The records of step 18 about `accused`. -/
def Verdict (accused : UInt8) (c : Cheater) : Prop :=
  c.step = 18 ∧ c.peer = accused ∧
    ((∃ r, RecvCode r ∧ c.error = 16 + r) ∨ c.error = 3 ∨ c.error = 4 ∨ c.error = 5 ∨ c.error = 6 ∨ c.error = 127 ∨
      (c.error = 128 ∧ c.other ≠ 0) ∨ c.error = 129)

theorem pres_tp18Key (G : Type) [Ristretto G] [NoiseCrypto] [Mac] {clock : ℕ → UInt64} {log : Bool} {scratch : B32}
    {input : Bytes} {ptr k : ℕ} {accused : UInt8} (ha : ld input (ptr + 69) = .ok accused)
    (hP : ∀ c, Verdict accused c → P c) :
    Pres R (fun _ => True) (tp18Key G clock log scratch input ptr k) := by
  unfold tp18Key
  rw [ha]
  refine pres_bind F.trans (pres_lift' F.refl) fun complainer _ => ?_
  refine pres_bind (V := fun x => x = accused) F.trans (pres_lift F.refl fun a h => by cases h; rfl) fun _ h => ?_
  subst h
  refine pres_bind F.trans (pres_get F.refl) fun s _ => ?_
  refine pres_ite (fun h => ?_) fun h => ?_
  · refine pres_bind F.trans (pres_modify fun s => F.loc s _ _) fun _ _ => ?_
    refine pres_ite (fun h => pres_lift' F.refl) fun h => ?_
    refine pres_bind F.trans (pres_lift' F.refl) fun key _ => ?_
    refine pres_tp18Share F G ?_ ?_ ?_ ?_ ?_
    · exact fun r k hr => hP _ ⟨rfl, rfl, .inl ⟨r, hr, rfl⟩⟩
    · exact fun k => hP _ ⟨rfl, rfl, by simp⟩
    · exact fun k => hP _ ⟨rfl, rfl, by simp⟩
    · exact fun k => hP _ ⟨rfl, rfl, by simp⟩
    · rintro r k (rfl | rfl | rfl)
      · exact hP _ ⟨rfl, rfl, by simp⟩
      · exact hP _ ⟨rfl, rfl, by simp; tauto⟩
      · exact hP _ ⟨rfl, rfl, by simp⟩
  · exact pres_addCheater F fun k => hP _ ⟨rfl, rfl, by simp⟩

theorem pres_tp18 (G : Type) [Ristretto G] [NoiseCrypto] [Mac] {clock : ℕ → UInt64} {log : Bool} {scratch : B32}
    {input : Bytes} (hP : ∀ i < 255, ∀ c, Verdict (idx i) c → P c)
    (hPm : ∀ i < 255, ∀ r k, RecvCode r → P ⟨18, 32 + r, idx i, 0xfe, k⟩) (hP7 : ∀ a b k, P ⟨18, 7, a, b, k⟩)
    (hst : ∀ s, R s { s with ctx := { s.ctx with step := 99 } }) :
    Pres R (fun r => r = 3) (tp18 G clock log scratch input) := by
  unfold tp18
  have hb : ∀ (n : UInt8) ctr, ∀ i < n.toNat, Pres R (fun _ => True) (tp18Body G clock log scratch input ctr i) := by
    intro n ctr i hi
    unfold tp18Body
    refine pres_bind F.trans (pres_lift' F.refl) fun c _ => pres_ite (fun _ => pres_pure F.refl trivial) fun _ =>
      pres_bind F.trans (pres_get F.refl) fun s _ => pres_bind F.trans (pres_dump F _ _ _ _) fun _ _ =>
      pres_bind F.trans (pres_sigPkOf F _) fun pk _ => pres_bind F.trans (pres_tpRecv F _ _ _ _ _ _ _ _ _)
      fun r hr => pres_ite
        (fun h => pres_bind F.trans (V := fun _ => True) ?_ fun _ _ => pres_modify fun s => F.loc s s.loc _)
        (fun h => pres_bind F.trans (V := fun _ => True) ?_ fun _ _ => pres_modify fun s => F.loc s s.loc _)
    · exact pres_addCheater F fun k => hPm i (lt255 hi) r k (recvCode hr h)
    · exact pres_forN F.refl F.trans fun k _ => pres_tp18Key F G (hr.2 (not_not.1 h)) (hP i (lt255 hi))
  pres [hb _ _ _ ‹_›, pres_modify fun s => F.loc s _ _, pres_tp18Rest F hP7 _, (pres_modify fun s => hst s)]

theorem pres_tp20 [Hashes] {clock : ℕ → UInt64} {log : Bool} {input : Bytes}
    (hP : ∀ i < 255, ∀ r k, RecvCode r → P ⟨20, 1 + r, idx i, 0, k⟩) (hP1 : ∀ i < 255, ∀ k, P ⟨20, 1, idx i, 0, k⟩)
    (hst : ∀ s, R s { s with ctx := { s.ctx with step := 99 } }) :
    Pres R (fun r => r = 0 ∨ r = 3) (tp20 clock log input) := by
  unfold tp20 tp20Body
  pres [(pres_modify fun s => hst s), pres_pure F.refl (.inl rfl), pres_pure F.refl (.inr rfl)]
  · exact hP _ (lt255 ‹_›) _ _ (recvCode ‹_› ‹_›)
  · exact hP1 _ (lt255 ‹_›) _

theorem pres_tp22 {clock : ℕ → UInt64} {log : Bool} {input : Bytes}
    (hP : ∀ i < 255, ∀ r k, RecvCode r → P ⟨22, 64 + r, idx i, 0, k⟩) :
    Pres R (fun r => r = 0) (tp22 clock log input) := by
  unfold tp22 tp22Body
  pres [pres_get F.refl]
  exact hP _ (lt255 ‹_›) _ _ (recvCode ‹_› ‹_›)

end Pres

end Verif.TpDkg
