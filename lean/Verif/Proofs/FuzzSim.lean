import Verif.Model.FuzzTp
import Verif.Props.FuzzRecv

/-!
# The trusted party built for fuzzing follows the one built for use
-/

set_option linter.unusedSectionVars false

namespace Verif.TpDkg

open Wire

/-- The states differ at most in the time stamps and in the number of calls of `time`. -/
def Twin (s f : Run) : Prop :=
  ∃ (l : List UInt64) (k : ℕ), f = { s with ctx := { s.ctx with lastTs := l, ticks := k } }

theorem Twin.refl (s : Run) : Twin s s := ⟨s.ctx.lastTs, s.ctx.ticks, rfl⟩

/-- The second computation does what the first one does: always (`q`), or if no cheaters are known at the end. -/
def Follows {α : Type} (q : Bool) (m mF : H Run α) : Prop := ∀ s f, Twin s f →
  match m s with
  | .ub _ => True
  | .ok (.error e, _) => e ≠ 0
  | .ok (.ok a, s') => (s'.ctx.cheaterLen = 0 → s.ctx.cheaterLen = 0) ∧
      ((q = true ∨ s'.ctx.cheaterLen = 0) → ∃ f', mF f = .ok (.ok a, f') ∧ Twin s' f')

/-- It only ends normally if no cheaters were known at the start. -/
def Clean {α : Type} (m : H Run α) : Prop := ∀ s a s', m s = .ok (.ok a, s') → s.ctx.cheaterLen = 0

namespace Follows

variable {α β : Type} {q : Bool}

theorem bind {m mF : H Run α} {k kF : α → H Run β} (hm : Follows q m mF) (hk : ∀ a, Follows q (k a) (kF a)) :
    Follows q (m >>= k) (mF >>= kF) := by
  intro s f hr
  have h := hm s f hr
  change match H.bind m k s with | .ub _ => True | .ok (.error e, _) => e ≠ 0 | .ok (.ok a, s') => _ ∧ (_ → ∃ f', H.bind mF kF f = _ ∧ _)
  unfold H.bind
  cases e : m s with
  | ub u => trivial
  | ok p =>
    obtain ⟨r, s1⟩ := p
    rw [e] at h
    cases r with
    | error c => exact h
    | ok a =>
      dsimp only at h ⊢
      have h1 := hk a s1 s1 (.refl s1)
      cases e1 : k a s1 with
      | ub u => trivial
      | ok p =>
        obtain ⟨r, s2⟩ := p
        rw [e1] at h1
        cases r with
        | error c => exact h1
        | ok b =>
          dsimp only at h1 ⊢
          refine ⟨fun hc => h.1 (h1.1 hc), fun hc => ?_⟩
          obtain ⟨f1, ef, hr1⟩ := h.2 (hc.imp_right h1.1)
          have h2 := hk a s1 f1 hr1
          rw [e1] at h2
          rw [ef]
          exact h2.2 hc

/-- A part that knows no cheaters at its end, before a part that goes on only then. -/
theorem cut {m mF : H Run α} {k kF : α → H Run β} (hm : Follows false m mF) (hk : ∀ a, Follows true (k a) (kF a))
    (hn : ∀ a, Clean (k a)) : Follows true (m >>= k) (mF >>= kF) := by
  intro s f hr
  have h := hm s f hr
  change match H.bind m k s with | .ub _ => True | .ok (.error e, _) => e ≠ 0 | .ok (.ok a, s') => _ ∧ (_ → ∃ f', H.bind mF kF f = _ ∧ _)
  unfold H.bind
  cases e : m s with
  | ub u => trivial
  | ok p =>
    obtain ⟨r, s1⟩ := p
    rw [e] at h
    cases r with
    | error c => exact h
    | ok a =>
      dsimp only at h ⊢
      have h1 := hk a s1 s1 (.refl s1)
      cases e1 : k a s1 with
      | ub u => trivial
      | ok p =>
        obtain ⟨r, s2⟩ := p
        rw [e1] at h1
        cases r with
        | error c => exact h1
        | ok b =>
          dsimp only at h1 ⊢
          have h0 := hn a s1 b s2 e1
          refine ⟨fun _ => h.1 h0, fun hc => ?_⟩
          obtain ⟨f1, ef, hr1⟩ := h.2 (.inr h0)
          have h2 := hk a s1 f1 hr1
          rw [e1] at h2
          rw [ef]
          exact h2.2 hc

theorem pure (a : α) : Follows q (Pure.pure a : H Run α) (Pure.pure a) :=
  fun _ f hr => ⟨id, fun _ => ⟨f, rfl, hr⟩⟩

theorem ret {r : Int} (h : r ≠ 0) (mF : H Run α) : Follows q (H.ret r : H Run α) mF := fun _ _ _ => h

theorem lift (x : C α) : Follows q (H.lift x : H Run α) (H.lift x) := by
  intro s f hr
  unfold H.lift
  cases x with
  | ub u => trivial
  | ok a => exact ⟨id, fun _ => ⟨f, rfl, hr⟩⟩

theorem get_bind {k kF : Run → H Run α} (h : ∀ s f, Twin s f → Follows q (k s) (kF f)) :
    Follows q (H.get >>= k) (H.get >>= kF) := fun s f hr => h s f hr s f hr

theorem get_left {k : Run → H Run α} {mF : H Run α} (h : ∀ s, Follows q (k s) mF) : Follows q (H.get >>= k) mF :=
  fun s f hr => h s s f hr

theorem lift_left {x : C β} {k : β → H Run α} {mF : H Run α} (h : ∀ b, Follows q (k b) mF) :
    Follows q (H.lift x >>= k) mF := by
  cases x with
  | ub u => exact fun _ _ _ => trivial
  | ok b => exact fun s f hr => h b s f hr

theorem modify {g : Run → Run} (h : ∀ s f, Twin s f → Twin (g s) (g f)) (hc : ∀ s, (g s).ctx.cheaterLen = s.ctx.cheaterLen) :
    Follows q (H.modify g) (H.modify g) :=
  fun s f hr => ⟨fun h0 => by rw [← hc s]; exact h0, fun _ => ⟨_, rfl, h s f hr⟩⟩

theorem loop {f fF : ℕ → H Run Unit} (h : ∀ i, Follows q (f i) (fF i)) : ∀ m i, Follows q (H.loop f m i) (H.loop fF m i)
  | 0, _ => by unfold H.loop; exact pure ()
  | m + 1, i => by unfold H.loop; exact (h i).bind fun _ => loop h m (i + 1)

theorem forN {n : ℕ} {f fF : ℕ → H Run Unit} (h : ∀ i, Follows q (f i) (fF i)) : Follows q (H.forN n f) (H.forN n fF) :=
  loop h n 0

theorem dump (log : Bool) (buf : Bytes) (off len : ℕ) : Follows q (TpDkg.dump log buf off len) (TpDkg.dump log buf off len) := by
  unfold TpDkg.dump
  split
  · exact (lift _).bind fun _ => pure ()
  · exact pure ()

theorem setW (w : ℕ) : Follows q (H.modify fun s => { s with w := w }) (H.modify fun s => { s with w := w }) :=
  modify (by rintro s _ ⟨l, k, rfl⟩; exact ⟨l, k, rfl⟩) fun _ => rfl

theorem copyOut (input : Bytes) (off len : ℕ) : Follows q (TpDkg.copyOut input off len) (TpDkg.copyOut input off len) := by
  refine get_bind ?_
  rintro s _ ⟨l, k, rfl⟩
  refine (lift _).bind fun m => (lift _).bind fun o => modify ?_ fun _ => rfl
  rintro s _ ⟨l, k, rfl⟩
  exact ⟨l, k, rfl⟩

theorem setOut (off : ℕ) (b : Bytes) : Follows q (TpDkg.setOut off b) (TpDkg.setOut off b) := by
  refine get_bind ?_
  rintro s _ ⟨l, k, rfl⟩
  refine (lift _).bind fun o => modify ?_ fun _ => rfl
  rintro s _ ⟨l, k, rfl⟩
  exact ⟨l, k, rfl⟩

theorem setSigPk (i : ℕ) (pk : B32) : Follows q (TpDkg.setSigPk i pk) (TpDkg.setSigPk i pk) := by
  refine get_bind ?_
  rintro s _ ⟨l, k, rfl⟩
  refine (lift _).bind fun o => modify ?_ fun _ => rfl
  rintro s _ ⟨l, k, rfl⟩
  exact ⟨l, k, rfl⟩

theorem setCommitments (off : ℕ) (d : List B32) : Follows q (TpDkg.setCommitments off d) (TpDkg.setCommitments off d) := by
  refine get_bind ?_
  rintro s _ ⟨l, k, rfl⟩
  refine (lift _).bind fun o => modify ?_ fun _ => rfl
  rintro s _ ⟨l, k, rfl⟩
  exact ⟨l, k, rfl⟩

theorem keepShares (input : Bytes) : Follows q (TpDkg.keepShares input) (TpDkg.keepShares input) := by
  refine get_bind ?_
  rintro s _ ⟨l, k, rfl⟩
  refine (lift _).bind fun o => modify ?_ fun _ => rfl
  rintro s _ ⟨l, k, rfl⟩
  exact ⟨l, k, rfl⟩

theorem addComplaint (p : UInt16) : Follows q (TpDkg.addComplaint p) (TpDkg.addComplaint p) := by
  refine get_bind ?_
  rintro s _ ⟨l, k, rfl⟩
  refine (lift _).bind fun o => modify ?_ fun _ => rfl
  rintro s _ ⟨l, k, rfl⟩
  exact ⟨l, k, rfl⟩

theorem transcript : Follows q tpTranscript tpTranscript :=
  modify (by rintro s _ ⟨l, k, rfl⟩; exact ⟨l, k, rfl⟩) fun _ => rfl

/-- Behind a new cheater nothing has to be followed. -/
theorem addCheater {code : Int} (hc : code ≠ 0) (step error : Int) (peer other : UInt8) (mF : H Run Unit) :
    Follows false (addCheater step error peer other code) mF := by
  intro s f hr
  have key : ∀ x, TpDkg.addCheater step error peer other code s = x → match x with
      | .ub _ => True
      | .ok (.error e, _) => e ≠ 0
      | .ok (.ok _, s') => s'.ctx.cheaterLen ≠ 0 := by
    intro x hx
    unfold TpDkg.addCheater addCheaterIx at hx
    change H.bind H.get _ s = x at hx
    unfold H.bind H.get at hx
    dsimp only at hx
    split at hx
    · subst hx; exact hc
    · change H.bind (H.lift _) _ s = x at hx
      unfold H.bind H.lift at hx
      cases e : ld s.ctx.cheaters s.ctx.cheaterLen with
      | ub u => rw [e] at hx; subst hx; trivial
      | ok c =>
        rw [e] at hx
        dsimp only at hx
        change H.bind (H.lift _) _ s = x at hx
        unfold H.bind H.lift at hx
        split at hx
        · rename_i e2
          cases e3 : st s.ctx.cheaters s.ctx.cheaterLen ⟨step, error, peer, other, none.getD c.invalidIndex⟩ with
          | ub u => rw [e3] at e2; cases e2
          | ok cs =>
            rw [e3] at e2
            cases e2
            subst hx
            exact Nat.succ_ne_zero _
        · rename_i e2
          cases e3 : st s.ctx.cheaters s.ctx.cheaterLen ⟨step, error, peer, other, none.getD c.invalidIndex⟩ with
          | ub u => rw [e3] at e2; cases e2
          | ok cs => rw [e3] at e2; cases e2
        · subst hx; trivial
  have := key _ rfl
  revert this
  cases TpDkg.addCheater step error peer other code s with
  | ub u => exact fun _ => trivial
  | ok p =>
    obtain ⟨r, s'⟩ := p
    cases r with
    | error e => exact id
    | ok a => exact fun h => ⟨fun h0 => absurd h0 h, fun h0 => absurd (h0.resolve_left (by simp)) h⟩

theorem noCheaters {code : Int} (hc : code ≠ 0) : Follows q (noCheaters code) (noCheaters code) := by
  refine get_bind ?_
  rintro s _ ⟨l, k, rfl⟩
  dsimp only
  split
  · exact ret hc _
  · exact pure ()

variable [Signing] [Hashes]

theorem send (now : UInt64) (off len : ℕ) (msgno rcp : UInt8) :
    Follows q (tpSend (fun _ => now) off len msgno rcp) (tpSend (fun _ => now) off len msgno rcp) := by
  refine get_bind ?_
  rintro s _ ⟨l, k, rfl⟩
  refine (lift _).bind fun o => modify ?_ fun _ => rfl
  rintro s _ ⟨l, k, rfl⟩
  exact ⟨l, k + 1, rfl⟩

/-- A message that is accepted here is accepted there. -/
theorem recv {clock : ℕ → UInt64} {input : Bytes} {off len : ℕ} {msgno frm rcp : UInt8} {pk : B32} {i : ℕ} {k kF : Int → H Run α}
    (hbad : ∀ r, r ≠ 0 → ∀ mF, Follows q (k r) mF) (hgood : Follows q (k 0) (kF 0)) :
    Follows q (tpRecv clock input off len msgno frm rcp pk i >>= k) (tpRecvF input off len msgno frm rcp >>= kF) := by
  rintro s f ⟨l0, k0, rfl⟩
  change match H.bind (tpRecv clock input off len msgno frm rcp pk i) k s with
    | .ub _ => True | .ok (.error e, _) => e ≠ 0
    | .ok (.ok a, s') => _ ∧ (_ → ∃ f', H.bind (tpRecvF input off len msgno frm rcp) kF _ = _ ∧ _)
  have key : ∀ x, tpRecv clock input off len msgno frm rcp pk i s = x → (∃ u, x = .ub u) ∨
      ∃ r s', x = .ok (.ok r, s') ∧ Twin s s' ∧ (r = 0 → recvMsgFuzz input off len msgno frm rcp s.ctx.sid = .ok 0) := by
    intro x hx
    change H.bind H.get (fun s => H.bind (H.lift (ld s.ctx.lastTs i)) fun last => H.bind (H.lift (recvMsg (clock s.ctx.ticks) input off
      len msgno frm rcp pk s.ctx.sid s.ctx.eps last)) fun p => H.bind (H.lift (Verif.st s.ctx.lastTs i p.2.1)) fun lastTs =>
      H.bind (setCtx fun ctx => { ctx with lastTs, ticks := ctx.ticks + p.2.2 }) fun _ => Pure.pure p.1) s = x at hx
    unfold H.bind H.get H.lift at hx
    dsimp only at hx
    cases e1 : ld s.ctx.lastTs i with
    | ub u => rw [e1] at hx; exact .inl ⟨u, hx.symm⟩
    | ok last =>
      rw [e1] at hx
      dsimp only at hx
      cases e2 : recvMsg (clock s.ctx.ticks) input off len msgno frm rcp pk s.ctx.sid s.ctx.eps last with
      | ub u => rw [e2] at hx; exact .inl ⟨u, hx.symm⟩
      | ok p =>
        obtain ⟨r, last', j⟩ := p
        rw [e2] at hx
        dsimp only at hx
        cases e3 : Verif.st s.ctx.lastTs i last' with
        | ub u => rw [e3] at hx; exact .inl ⟨u, hx.symm⟩
        | ok lastTs =>
          rw [e3] at hx
          dsimp only at hx
          refine .inr ⟨r, _, hx.symm, ⟨_, _, rfl⟩, fun h0 => ?_⟩
          subst h0
          exact Props.C108_accepts e2
  unfold H.bind
  rcases key _ rfl with ⟨u, e⟩ | ⟨r, s', e, ⟨l, j, rfl⟩, h0⟩
  · rw [e]; trivial
  · rw [e]
    dsimp only
    by_cases hr : r = 0
    · subst hr
      have hf : tpRecvF input off len msgno frm rcp { s with ctx := { s.ctx with lastTs := l0, ticks := k0 } } =
          .ok (.ok 0, { s with ctx := { s.ctx with lastTs := l0, ticks := k0 } }) := by
        change H.lift (recvMsgFuzz input off len msgno frm rcp s.ctx.sid) _ = _
        rw [h0 rfl]
        rfl
      rw [hf]
      exact hgood _ _ ⟨l0, k0, rfl⟩
    · exact hbad r hr (tpRecvF input off len msgno frm rcp >>= kF) _ _ ⟨l0, k0, rfl⟩

end Follows

namespace Clean

variable {α β : Type}

theorem noCheaters_bind {code : Int} {k : Unit → H Run α} : Clean (noCheaters code >>= k) := by
  intro s a s' h
  by_contra h0
  have e : noCheaters code s = .ok (.error code, s) := by
    change (if s.ctx.cheaterLen > 0 then H.ret code else pure () : H Run Unit) s = _
    rw [if_pos (by omega)]
    rfl
  change H.bind (noCheaters code) k s = _ at h
  unfold H.bind at h
  rw [e] at h
  cases h

theorem get_bind {k : Run → H Run α} (h : ∀ s, Clean (k s)) : Clean (H.get >>= k) := fun s a s' e => h s s a s' e

theorem lift_bind {x : C β} {k : β → H Run α} (h : ∀ b, Clean (k b)) : Clean (H.lift x >>= k) := by
  intro s a s' e
  cases x with
  | ub u => cases e
  | ok b => exact h b s a s' e

/-- A new cheater and an early return. -/
theorem never {m : H Run Unit} {r : Int} : Clean (m >>= fun _ => (H.ret r : H Run α)) := by
  intro s a s' h
  change H.bind m _ s = _ at h
  unfold H.bind at h
  split at h <;> cases h

end Clean

/-- After a part without an end nothing has to be followed. -/
theorem Follows.never {α : Type} {q : Bool} {m : H Run Unit} {r : Int} (hr : r ≠ 0) (hm : Follows false m m) (mF : H Run α) :
    Follows q (m >>= fun _ => (H.ret r : H Run α)) mF := by
  intro s f h
  have := hm s s (.refl s)
  have e : (m >>= fun _ => (H.ret r : H Run α)) s = H.bind m (fun _ => H.ret r) s := rfl
  rw [e]
  unfold H.bind
  revert this
  cases m s with
  | ub u => exact fun _ => trivial
  | ok p =>
    obtain ⟨x, s'⟩ := p
    cases x with
    | error e => exact id
    | ok a => exact fun _ => hr

namespace Follows

variable [Signing] [Hashes]

theorem noComplaints {q : Bool} : Follows q (setCtx fun ctx => { ctx with complaintsLen := 0 })
    (setCtx fun ctx => { ctx with complaintsLen := 0 }) :=
  modify (by rintro s _ ⟨l, k, rfl⟩; exact ⟨l, k, rfl⟩) fun _ => rfl

/-- What need not be followed by undefined behaviour need not be followed by anything. -/
theorem any {α β : Type} {q : Bool} {m : H Run α} {u : UB} {k : β → H Run α} (h : Follows q m (H.lift (.ub u) >>= k)) (mF : H Run α) :
    Follows q m mF := by
  intro s f hr
  have h := h s f hr
  revert h
  cases m s with
  | ub u => exact id
  | ok p =>
    obtain ⟨x, s'⟩ := p
    cases x with
    | error e => exact id
    | ok a =>
      refine fun h => ⟨h.1, fun hc => ?_⟩
      obtain ⟨f', e, -⟩ := h.2 hc
      cases e

theorem cheat_bind {α : Type} {code : Int} (hc : code ≠ 0) {step error : Int} {peer other : UInt8} {k : Unit → H Run α}
    (hk : ∀ a, Follows false (k a) (k a)) (mF : H Run α) : Follows false (TpDkg.addCheater step error peer other code >>= k) mF :=
  any (u := .oob) ((addCheater hc _ _ _ _ _).bind hk) mF

theorem follows_tp4 (now : UInt64) (log : Bool) (input : Bytes) :
    Follows true (tp4 (fun _ => now) log input) (tp4F (fun _ => now) log input) := by
  unfold tp4 tp4F
  refine get_bind ?_
  rintro s _ ⟨l, k, rfl⟩
  dsimp only
  split
  · exact ret (by decide) _
  split
  · exact ret (by decide) _
  refine (setW _).bind fun _ => cut (forN fun i => ?_) (fun _ => (noCheaters (by decide)).bind fun _ =>
    (send _ _ _ _ _).bind fun _ => transcript.bind fun _ => pure _) fun _ => Clean.noCheaters_bind
  unfold tp4Body tp4BodyF
  refine (dump _ _ _ _).bind fun _ => get_left fun s => lift_left fun _ => lift_left fun _ => lift_left fun _ => ?_
  split
  · exact ret (by decide) _
  refine (lift _).bind fun _ => recv (fun r hr mF => ?_) ?_
  · rw [if_pos hr]; exact addCheater (by decide) _ _ _ _ _
  · exact (setSigPk _ _).bind fun _ => copyOut _ _ _

theorem follows_tp68 (now : UInt64) (log : Bool) (input : Bytes) :
    Follows true (tp68 (fun _ => now) log input) (tp68F log input) := by
  unfold tp68 tp68F
  refine get_bind ?_
  rintro s _ ⟨l, k, rfl⟩
  dsimp only
  split
  · exact ret (by decide) _
  split
  · exact ret (by decide) _
  refine (setW _).bind fun _ => cut (forN fun i => forN fun j => ?_) (fun _ => (noCheaters (by decide)).bind fun _ => pure _)
    fun _ => Clean.noCheaters_bind
  unfold tp68Body tp68BodyF sigPkOf
  refine get_left fun _ => lift_left fun _ => recv (fun r hr mF => ?_) ?_
  · rw [if_pos hr]
    refine cheat_bind (by decide) (fun _ => ?_) mF
    split
    · exact lift _
    · exact dump _ _ _ _
  · exact copyOut _ _ _

theorem follows_tp12 (now : UInt64) (log : Bool) (input : Bytes) :
    Follows true (tp12 (fun _ => now) log input) (tp12F (fun _ => now) log input) := by
  unfold tp12 tp12F
  refine get_bind ?_
  rintro s _ ⟨l, k, rfl⟩
  dsimp only
  split
  · exact ret (by decide) _
  split
  · exact ret (by decide) _
  refine (setW _).bind fun _ => cut (forN fun i => ?_) (fun _ => (noCheaters (by decide)).bind fun _ =>
    (send _ _ _ _ _).bind fun _ => transcript.bind fun _ => pure _) fun _ => Clean.noCheaters_bind
  unfold tp12Body tp12BodyF sigPkOf
  refine (dump _ _ _ _).bind fun _ => get_left fun _ => lift_left fun _ => recv (fun r hr mF => ?_) ?_
  · rw [if_pos hr]; exact addCheater (by decide) _ _ _ _ _
  · exact (lift _).bind fun _ => (setCommitments _ _).bind fun _ => copyOut _ _ _

theorem follows_tp14 (now : UInt64) (log : Bool) (input : Bytes) :
    Follows true (tp14 (fun _ => now) log input) (tp14F log input) := by
  unfold tp14 tp14F
  refine get_bind ?_
  rintro s _ ⟨l, k, rfl⟩
  dsimp only
  split
  · exact ret (by decide) _
  split
  · exact ret (by decide) _
  refine (setW _).bind fun _ => cut (forN fun i => forN fun j => ?_) (fun _ => (noCheaters (by decide)).bind fun _ =>
    (keepShares _).bind fun _ => pure _) fun _ => Clean.noCheaters_bind
  unfold tp14Body tp14BodyF sigPkOf
  refine (dump _ _ _ _).bind fun _ => get_left fun _ => lift_left fun _ => recv (fun r hr mF => ?_) ?_
  · rw [if_pos hr]; exact addCheater (by decide) _ _ _ _ _
  · exact copyOut _ _ _

theorem follows_inner (input : Bytes) (data i k : ℕ) : Follows false (tp16Inner input data i k) (tp16Inner input data i k) := by
  unfold tp16Inner
  refine (lift _).bind fun x => get_bind ?_
  rintro s _ ⟨l, k, rfl⟩
  dsimp only
  split
  · exact addCheater (by decide) _ _ _ _ _
  refine (lift _).bind fun _ => ?_
  split
  · exact addCheater (by decide) _ _ _ _ _
  · exact addComplaint _

theorem follows_tp16 (now : UInt64) (log : Bool) (input : Bytes) :
    Follows true (tp16 (fun _ => now) log input) (tp16F (fun _ => now) log input) := by
  unfold tp16 tp16F
  refine get_bind ?_
  rintro s _ ⟨l, k, rfl⟩
  dsimp only
  split
  · exact ret (by decide) _
  split
  · exact ret (by decide) _
  refine noComplaints.bind fun _ => (setW _).bind fun _ =>
    cut (forN fun i => ?_) (fun _ => ?_) fun _ => ?_
  · unfold tp16Body tp16BodyF sigPkOf
    refine (dump _ _ _ _).bind fun _ => get_left fun _ => lift_left fun _ => recv (fun r hr mF => ?_) ?_
    · rw [if_pos hr]; exact addCheater (by decide) _ _ _ _ _
    · refine (lift _).bind fun _ => (lift _).bind fun _ => ?_
      split
      · exact ret (by decide) _
      · exact (forN fun _ => follows_inner _ _ _ _).bind fun _ => copyOut _ _ _
  · refine get_bind ?_
    rintro s _ ⟨l, k, rfl⟩
    dsimp only
    have h : ∀ (L : ℕ), Follows true (α := Int) (if s.ctx.complaintsLen.toNat ≥ s.ctx.t.toNat * s.ctx.t.toNat then do
          TpDkg.addCheater 16 6 0xfe 0xfe 6
          H.ret 5
        else do
          TpDkg.noCheaters 5
          tpSend (fun _ => now) 0 L 10 0xff
          tpTranscript
          Pure.pure 0) (if s.ctx.complaintsLen.toNat ≥ s.ctx.t.toNat * s.ctx.t.toNat then do
          TpDkg.addCheater 16 6 0xfe 0xfe 6
          H.ret 5
        else do
          TpDkg.noCheaters 5
          tpSend (fun _ => now) 0 L 10 0xff
          tpTranscript
          Pure.pure 0) := by
      intro L
      split
      · exact Follows.never (by decide) (addCheater (by decide) _ _ _ _ _) _
      · exact (noCheaters (by decide)).bind fun _ => (send _ _ _ _ _).bind fun _ => transcript.bind fun _ => pure _
    cases log with
    | false => exact h _
    | true => exact (lift _).bind fun _ => h _
  · refine Clean.get_bind fun s => ?_
    have h : ∀ (L : ℕ), Clean (α := Int) (if s.ctx.complaintsLen.toNat ≥ s.ctx.t.toNat * s.ctx.t.toNat then do
          TpDkg.addCheater 16 6 0xfe 0xfe 6
          H.ret 5
        else do
          TpDkg.noCheaters 5
          tpSend (fun _ => now) 0 L 10 0xff
          tpTranscript
          Pure.pure 0) := by
      intro L
      split
      · exact Clean.never
      · exact Clean.noCheaters_bind
    cases log with
    | false => exact h _
    | true => exact Clean.lift_bind fun _ => h _

theorem follows_tp22 (now : UInt64) (log : Bool) (input : Bytes) :
    Follows true (tp22 (fun _ => now) log input) (tp22F log input) := by
  unfold tp22 tp22F
  refine get_bind ?_
  rintro s _ ⟨l, k, rfl⟩
  dsimp only
  split
  · exact ret (by decide) _
  split
  · exact ret (by decide) _
  refine cut (forN fun i => ?_) (fun _ => (noCheaters (by decide)).bind fun _ => pure _) fun _ => Clean.noCheaters_bind
  unfold tp22Body tp22BodyF sigPkOf
  refine (dump _ _ _ _).bind fun _ => get_left fun _ => lift_left fun _ => recv (fun r hr mF => ?_) ?_
  · rw [if_pos hr]; exact addCheater (by decide) _ _ _ _ _
  · exact (lift _).bind fun _ => pure _

theorem tail20 : Follows false (H.get >>= fun s : Run => if s.ctx.cheaterLen = 0 then Pure.pure (0 : Int)
    else setCtx (fun ctx => { ctx with step := 99 }) >>= fun _ => Pure.pure 3) (H.get >>= fun s : Run => if s.ctx.cheaterLen = 0 then
    Pure.pure (0 : Int) else setCtx (fun ctx => { ctx with step := 99 }) >>= fun _ => Pure.pure 3) := by
  refine get_bind ?_
  rintro s _ ⟨l, k, rfl⟩
  dsimp only
  split
  · exact pure _
  · exact (modify (g := fun s => { s with ctx := { s.ctx with step := 99 } })
      (by rintro s _ ⟨l, k, rfl⟩; exact ⟨l, k, rfl⟩) fun _ => rfl).bind fun _ => pure _

theorem follows_tp20 (now : UInt64) (log : Bool) (input : Bytes) :
    Follows false (tp20 (fun _ => now) log input) (tp20F (fun _ => now) log input) := by
  unfold tp20 tp20F
  refine get_bind ?_
  rintro s _ ⟨l, k, rfl⟩
  dsimp only
  split
  · exact ret (by decide) _
  split
  · exact ret (by decide) _
  refine (setOut _ _).bind fun _ => (forN fun i => ?_).bind fun _ => (send _ _ _ _ _).bind fun _ => tail20
  unfold tp20Body tp20BodyF sigPkOf
  refine (dump _ _ _ _).bind fun _ => get_left fun _ => lift_left fun _ => recv (fun r hr mF => ?_) ?_
  · rw [if_pos hr]
    exact cheat_bind (by decide) (fun _ => setOut _ _) mF
  · refine (lift _).bind fun _ => ?_
    split
    · exact (addCheater (by decide) _ _ _ _ _).bind fun _ => setOut _ _
    · exact pure _

end Follows

/-- The value 0 is only returned without cheaters. -/
def Zero (m : H Run Int) : Prop := ∀ s s', m s = .ok (.ok 0, s') → s'.ctx.cheaterLen = 0

theorem Zero.bind {α : Type} {m : H Run α} {k : α → H Run Int} (h : ∀ a, Zero (k a)) : Zero (m >>= k) := by
  intro s s' e
  change H.bind m k s = _ at e
  unfold H.bind at e
  split at e
  · exact h _ _ _ e
  · cases e
  · cases e

/-- An early return does not return 0. -/
def Loud {α : Type} (m : H Run α) : Prop := ∀ s e s', m s = .ok (.error e, s') → e ≠ 0

namespace Loud

variable {α β : Type}

theorem bind {m : H Run α} {k : α → H Run β} (hm : Loud m) (hk : ∀ a, Loud (k a)) : Loud (m >>= k) := by
  intro s e s' h
  change H.bind m k s = _ at h
  unfold H.bind at h
  split at h
  · exact hk _ _ _ _ h
  · rename_i h1; cases h; exact hm _ _ _ h1
  · cases h

theorem pure (a : α) : Loud (Pure.pure a : H Run α) := by intro s e s' h; cases h
theorem get : Loud (H.get : H Run Run) := by intro s e s' h; cases h
theorem modify (f : Run → Run) : Loud (H.modify f) := by intro s e s' h; cases h
theorem ret {r : Int} (hr : r ≠ 0) : Loud (H.ret r : H Run α) := by intro s e s' h; cases h; exact hr
theorem lift (x : C α) : Loud (H.lift x : H Run α) := by
  intro s e s' h
  unfold H.lift at h
  split at h <;> cases h

theorem loop {f : ℕ → H Run Unit} (hf : ∀ i, Loud (f i)) : ∀ m i, Loud (H.loop f m i)
  | 0, _ => by unfold H.loop; exact pure ()
  | m + 1, i => by unfold H.loop; exact (hf i).bind fun _ => loop hf m (i + 1)

theorem forN {n : ℕ} {f : ℕ → H Run Unit} (hf : ∀ i, Loud (f i)) : Loud (H.forN n f) := loop hf n 0

theorem dump (log : Bool) (buf : Bytes) (off len : ℕ) : Loud (TpDkg.dump log buf off len) := by
  unfold TpDkg.dump
  split
  · exact (lift _).bind fun _ => pure ()
  · exact pure ()

theorem cheaterIx {code : Int} (hc : code ≠ 0) (step error : Int) (peer other : UInt8) (inv : Option Int) :
    Loud (addCheaterIx step error peer other inv code) := by
  unfold addCheaterIx
  refine get.bind fun s => ?_
  split
  · exact ret hc
  · exact (lift _).bind fun _ => (lift _).bind fun _ => modify _

theorem cheater {code : Int} (hc : code ≠ 0) (step error : Int) (peer other : UInt8) :
    Loud (addCheater step error peer other code) := cheaterIx hc _ _ _ _ _

theorem rest : ∀ cs, Loud (tp18Rest cs)
  | [] => pure ()
  | c :: cs => by
    unfold tp18Rest
    dsimp only
    split
    · exact (cheater (by decide) _ _ _ _).bind fun _ => rest cs
    · exact (pure ()).bind fun _ => rest cs

variable [Signing] [Hashes]

theorem recv (clock : ℕ → UInt64) (input : Bytes) (off len : ℕ) (msgno frm rcp : UInt8) (pk : B32) (i : ℕ) :
    Loud (tpRecv clock input off len msgno frm rcp pk i) :=
  get.bind fun _ => (lift _).bind fun _ => (lift _).bind fun _ => (lift _).bind fun _ => (modify _).bind fun _ => pure _

theorem sigPk (i : ℕ) : Loud (sigPkOf i) := get.bind fun _ => lift _

variable [NoiseCrypto] [Mac] (G : Type) [Ristretto G]

theorem share (clock : ℕ → UInt64) (log : Bool) (scratch : B32) (accused complainer : UInt8) (m8 : ℕ) (key : B32) :
    Loud (tp18Share G clock log scratch accused complainer m8 key) := by
  unfold tp18Share
  refine get.bind fun s => (dump _ _ _ _).bind fun _ => (lift _).bind fun _ => (sigPk _).bind fun _ => (lift _).bind fun p =>
    (modify _).bind fun _ => ?_
  split
  · exact cheater (by decide) _ _ _ _
  refine (lift _).bind fun _ => (lift _).bind fun _ => ?_
  split
  · exact cheater (by decide) _ _ _ _
  split
  · exact cheater (by decide) _ _ _ _
  refine (lift _).bind fun _ => (lift _).bind fun _ => ?_
  split
  · exact cheaterIx (by decide) _ _ _ _ _
  dsimp only
  split
  · exact (lift _).bind fun _ => (lift _).bind fun _ => cheater (by decide) _ _ _ _
  · exact (lift _).bind fun _ => cheater (by decide) _ _ _ _

theorem tp18 (clock : ℕ → UInt64) (log : Bool) (scratch : B32) (input : Bytes) : Loud (TpDkg.tp18 G clock log scratch input) := by
  unfold TpDkg.tp18
  refine get.bind fun s => (lift _).bind fun _ => ?_
  split
  · exact ret (by decide)
  split
  · exact ret (by decide)
  split
  · exact lift _
  refine (lift _).bind fun _ => (lift _).bind fun _ => (modify _).bind fun _ => (forN fun i => ?_).bind fun _ => get.bind fun _ =>
    (rest _).bind fun _ => (modify _).bind fun _ => pure _
  unfold tp18Body
  refine (lift _).bind fun _ => ?_
  split
  · exact pure _
  refine get.bind fun _ => (dump _ _ _ _).bind fun _ => (sigPk _).bind fun _ => (recv _ _ _ _ _ _ _ _ _).bind fun _ => ?_
  dsimp only
  split
  · exact (cheater (by decide) _ _ _ _).bind fun _ => modify _
  refine (forN fun k => ?_).bind fun _ => modify _
  unfold tp18Key
  refine (lift _).bind fun _ => (lift _).bind fun _ => get.bind fun _ => ?_
  split
  · refine (modify _).bind fun _ => ?_
    split
    · exact lift _
    · exact (lift _).bind fun _ => share G _ _ _ _ _ _ _
  · exact cheater (by decide) _ _ _ _

end Loud

theorem zero_tp18 [Signing] [Hashes] [NoiseCrypto] [Mac] (G : Type) [Ristretto G] (clock : ℕ → UInt64) (log : Bool) (scratch : B32)
    (input : Bytes) : ∀ s s', tp18 G clock log scratch input s ≠ .ok (.ok 0, s') := by
  have key : ∀ {α : Type} {m : H Run α} {k : α → H Run Int}, (∀ a s s', k a s ≠ .ok (.ok 0, s')) → ∀ s s', (m >>= k) s ≠ .ok (.ok 0, s') := by
    intro α m k hk s s' h
    change H.bind m k s = _ at h
    unfold H.bind at h
    split at h
    · exact hk _ _ _ h
    · cases h
    · cases h
  unfold tp18
  refine key fun s => key fun _ => ?_
  split
  · intro s s' h; cases h
  split
  · intro s s' h; cases h
  split
  · intro s s' h; cases h
  refine key fun _ => key fun _ => key fun _ => key fun _ => key fun _ => key fun _ => key fun _ s s' h => ?_
  change (C.ok (Except.ok (3 : Int), _) : C (Except Int Int × Run)) = _ at h
  injection h with h
  injection h with h
  injection h with h
  omega

section
variable [Signing] [Hashes]

theorem zero_tp20 (clock : ℕ → UInt64) (log : Bool) (input : Bytes) : Zero (tp20 clock log input) := by
  unfold tp20
  refine .bind fun s => ?_
  dsimp only
  split
  · intro s s' e; cases e
  split
  · intro s s' e; cases e
  refine .bind fun _ => .bind fun _ => .bind fun _ => ?_
  intro s s' e
  change (if s.ctx.cheaterLen = 0 then Pure.pure (0 : Int) else setCtx (fun ctx => { ctx with step := 99 }) >>= fun _ =>
    Pure.pure 3 : H Run Int) s = _ at e
  split at e
  · rename_i h0; cases e; exact h0
  · change (C.ok (Except.ok (3 : Int), _) : C (Except Int Int × Run)) = _ at e
    injection e with e
    injection e with e
    injection e with e
    omega

variable [NoiseCrypto] [Mac] (G : Type) [Ristretto G]

theorem follows_handler (now : UInt64) (log : Bool) (scratch : B32) (input : Bytes) {step : ℕ} (h0 : step ≠ 0)
    {s s' : Run} (h : (tpHandler G (fun _ => now) log scratch input step).result s = .ok (0, s')) :
    ∃ f', (tpHandlerF G (fun _ => now) log scratch input step).result s = .ok (0, f') ∧ Twin s' f' := by
  have key : ∀ (q : Bool) (m mF : H Run Int), Follows q m mF → (q = true ∨ Zero m) → m.result s = .ok (0, s') →
      ∃ f', mF.result s = .ok (0, f') ∧ Twin s' f' := by
    intro q m mF hm hq h
    have h1 := hm s s (.refl s)
    unfold H.result at h
    cases e : m s with
    | ub u => rw [e] at h; cases h
    | ok p =>
      obtain ⟨x, s1⟩ := p
      rw [e] at h h1
      cases x with
      | error c => cases h; exact absurd rfl h1
      | ok a =>
        cases h
        obtain ⟨f', ef, hf⟩ := h1.2 (hq.imp_right fun hz => hz _ _ e)
        refine ⟨f', ?_, hf⟩
        unfold H.result
        rw [ef]
  match step, h0, h with
  | 1, _, h => exact key true _ _ (Follows.follows_tp4 now log input) (.inl rfl) h
  | 2, _, h => exact key true _ _ (Follows.follows_tp68 now log input) (.inl rfl) h
  | 3, _, h => exact key true _ _ (Follows.follows_tp68 now log input) (.inl rfl) h
  | 4, _, h => exact key true _ _ (Follows.follows_tp12 now log input) (.inl rfl) h
  | 5, _, h => exact key true _ _ (Follows.follows_tp14 now log input) (.inl rfl) h
  | 6, _, h => exact key true _ _ (Follows.follows_tp16 now log input) (.inl rfl) h
  | 8, _, h => exact key false _ _ (Follows.follows_tp20 now log input) (.inr (zero_tp20 _ _ _)) h
  | 9, _, h => exact key true _ _ (Follows.follows_tp22 now log input) (.inl rfl) h
  | 7, _, h =>
    exfalso
    change (tp18 G (fun _ => now) log scratch input).result s = _ at h
    unfold H.result at h
    split at h
    · rename_i e; cases h; exact zero_tp18 G _ _ _ _ _ _ e
    · rename_i e; cases h; exact Loud.tp18 G _ _ _ _ _ _ _ e rfl
    · cases h
  | n + 10, _, h => cases h

end

end Verif.TpDkg
