import Verif.Spec.Grounds
import Verif.Proofs.TpNext
import Verif.Proofs.Tp18

/-!
# Where the reports of the trusted party come from
-/

set_option linter.unusedSectionVars false

namespace Verif.TpDkg

open Wire Spec.Wire H

variable [Signing] [Hashes]

/-! ### Rules without preconditions; undefined behaviour is allowed -/

section
variable {E : Int → Run → Prop} {s : Run}

theorem gr_dump {Q : Unit → Run → Prop} {log : Bool} {buf : Bytes} {off len : ℕ} (h : Q () s) :
    Wp (dump log buf off len) True E Q s := by
  unfold dump
  rw [wp_ite]
  refine ⟨fun _ => ?_, fun _ => h⟩
  rw [wp_bind]
  exact wp_lift_of trivial fun _ _ => h

theorem gr_lift {α : Type} {Q : α → Run → Prop} {x : C α} (h : ∀ a, x = .ok a → Q a s) :
    Wp (H.lift x) True E Q s := wp_lift_of trivial h

theorem gr_sigPkOf {Q : B32 → Run → Prop} {i : ℕ} (h : ∀ pk, pk = pkOf s.ctx i → Q pk s) :
    Wp (sigPkOf i) True E Q s := by
  unfold sigPkOf
  rw [wp_bind, wp_get]
  refine gr_lift fun pk hpk => h pk ?_
  unfold ld at hpk
  split at hpk
  · rename_i hi
    cases hpk
    unfold pkOf
    rw [List.getD_eq_getElem?_getD, hi]
    rfl
  · cases hpk

theorem gr_recv {Q : Int → Run → Prop} {clock : ℕ → UInt64} {input : Bytes} {off len i : ℕ} {msgno frm rcp : UInt8}
    {pk : B32} (h : ∀ r last last' k, s.ctx.lastTs[i]? = some last →
      recvMsg (clock s.ctx.ticks) input off len msgno frm rcp pk s.ctx.sid s.ctx.eps last = .ok (r, last', k) →
      Q r { s with ctx := received s.ctx i last' k }) :
    Wp (tpRecv clock input off len msgno frm rcp pk i) True E Q s := by
  unfold tpRecv
  rw [wp_bind, wp_get, wp_bind]
  refine gr_lift fun last hl => ?_
  rw [wp_bind]
  refine gr_lift fun x hx => ?_
  obtain ⟨r, last', k⟩ := x
  dsimp only
  rw [wp_bind]
  refine gr_lift fun lt hlt => ?_
  rw [wp_bind, wp_setCtx, wp_pure]
  unfold ld at hl
  split at hl
  · rename_i hi
    cases hl
    have hi' : i < s.ctx.lastTs.length := by
      by_contra hc
      rw [List.getElem?_eq_none (by omega)] at hi
      cases hi
    rw [st_ok hi'] at hlt
    cases hlt
    exact h r _ last' k hi hx
  · cases hl

theorem gr_addCheater {Q : Unit → Run → Prop} {step error : Int} {peer other : UInt8} {code : Int} (hE : E code s)
    (h : ∀ x, s.ctx.cheaterLen < s.ctx.cheaterMax → s.ctx.cheaterLen < s.ctx.cheaters.length →
      Q () { s with ctx := report s.ctx ⟨step, error, peer, other, x⟩ }) :
    Wp (addCheater step error peer other code) True E Q s := by
  unfold addCheater addCheaterIx
  rw [wp_bind, wp_get, wp_ite]
  refine ⟨fun _ => hE, fun hf => ?_⟩
  rw [wp_bind]
  refine gr_lift fun c hc => ?_
  rw [wp_bind]
  refine gr_lift fun cs hcs => ?_
  unfold st at hcs
  split at hcs
  · rename_i h2
    cases hcs
    rw [wp_setCtx]
    exact h _ (by omega) h2
  · cases hcs

theorem gr_copyOut {Q : Unit → Run → Prop} {input : Bytes} {off len : ℕ} (h : ∀ out w, Q () { s with out, w }) :
    Wp (copyOut input off len) True E Q s := by
  unfold copyOut
  rw [wp_bind, wp_get, wp_bind]
  refine gr_lift fun _ _ => ?_
  rw [wp_bind]
  refine gr_lift fun _ _ => ?_
  rw [wp_modify]
  exact h _ _

theorem gr_setOut {Q : Unit → Run → Prop} {off : ℕ} {b : Bytes} (h : ∀ out, Q () { s with out }) :
    Wp (setOut off b) True E Q s := by
  unfold setOut
  rw [wp_bind, wp_get, wp_bind]
  refine gr_lift fun _ _ => ?_
  rw [wp_modify]
  exact h _

theorem gr_send {Q : Unit → Run → Prop} {clock : ℕ → UInt64} {off len : ℕ} {msgno rcp : UInt8}
    (h : ∀ out, Q () { s with out, ctx := { s.ctx with ticks := s.ctx.ticks + 1 } }) :
    Wp (tpSend clock off len msgno rcp) True E Q s := by
  unfold tpSend
  rw [wp_bind, wp_get, wp_bind]
  refine gr_lift fun _ _ => ?_
  rw [wp_modify]
  exact h _

theorem gr_setSigPk {Q : Unit → Run → Prop} {i : ℕ} {pk : B32}
    (h : ∀ pks, Q () { s with ctx := { s.ctx with sigPks := pks } }) : Wp (setSigPk i pk) True E Q s := by
  unfold setSigPk
  rw [wp_bind, wp_get, wp_bind]
  refine gr_lift fun _ _ => ?_
  rw [wp_setCtx]
  exact h _

theorem gr_setCommitments {Q : Unit → Run → Prop} {off : ℕ} {d : List B32}
    (h : ∀ cs, Q () { s with ctx := { s.ctx with commitments := cs } }) : Wp (setCommitments off d) True E Q s := by
  unfold setCommitments
  rw [wp_bind, wp_get, wp_bind]
  refine gr_lift fun _ _ => ?_
  rw [wp_setCtx]
  exact h _

theorem gr_keepShares {Q : Unit → Run → Prop} {d : Bytes}
    (h : ∀ es, Q () { s with ctx := { s.ctx with encShares := es } }) : Wp (keepShares d) True E Q s := by
  unfold keepShares
  rw [wp_bind, wp_get, wp_bind]
  refine gr_lift fun _ _ => ?_
  rw [wp_setCtx]
  exact h _

theorem gr_addComplaint {Q : Unit → Run → Prop} {p : UInt16}
    (h : s.ctx.complaintsLen.toNat < s.ctx.complaints.length → Q () { s with ctx := { s.ctx with
      complaints := s.ctx.complaints.set s.ctx.complaintsLen.toNat p, complaintsLen := s.ctx.complaintsLen + 1 } }) :
    Wp (addComplaint p) True E Q s := by
  unfold addComplaint
  rw [wp_bind, wp_get, wp_bind]
  refine gr_lift fun l hl => ?_
  rw [wp_setCtx]
  unfold st at hl
  split at hl
  · cases hl
    exact h (by assumption)
  · cases hl

theorem gr_noCheaters {Q : Unit → Run → Prop} {code : Int} (hE : E code s) (h : Q () s) :
    Wp (noCheaters code) True E Q s := by
  unfold noCheaters
  rw [wp_bind, wp_get, wp_ite]
  exact ⟨fun _ => hE, fun _ => h⟩

end

/-! ### The invariant -/

/-- The state after `m` messages of a call that was started with `c0`. -/
structure Grd (clock : ℕ → UInt64) (c0 : TP) (input : Bytes) (m : ℕ) (c : TP) : Prop where
  sid : c.sid = c0.sid
  eps : c.eps = c0.eps
  n : c.n = c0.n
  t : c.t = c0.t
  pks : c0.step ≠ 1 → c.sigPks = c0.sigPks
  ticks : c0.ticks ≤ c.ticks
  last : ∀ i l, c.lastTs[i]? = some l → Previous c0 input m i l
  log : ∃ new, c.log = c0.log ++ new ∧ ∀ x ∈ new, Ground clock c0 input x

/-- The log has grown by grounded reports, and the stored timestamps are old ones or those of messages. -/
def Grown (clock : ℕ → UInt64) (c0 : TP) (input : Bytes) (c : TP) : Prop :=
  (∃ new, c.log = c0.log ++ new ∧ ∀ x ∈ new, Ground clock c0 input x) ∧
    ∀ i l, c.lastTs[i]? = some l → ∃ m, Previous c0 input m i l

section
variable {clock : ℕ → UInt64} {c0 c : TP} {input : Bytes} {m : ℕ}

theorem grd_start : Grd clock c input 0 c where
  sid := rfl
  eps := rfl
  n := rfl
  t := rfl
  pks _ := rfl
  ticks := Nat.le_refl _
  last i l h := .inl (by rw [List.getD_eq_getElem?_getD, h]; rfl)
  log := ⟨[], by simp, by simp⟩

theorem grd_report (h : Grd clock c0 input m c) {x : Cheater} (hx : Ground clock c0 input x)
    (hl : c.cheaterLen < c.cheaters.length) : Grd clock c0 input m (report c x) := by
  obtain ⟨new, h1, h2⟩ := h.log
  refine { h with log := ⟨new ++ [x], ?_, ?_⟩ }
  · rw [log_report hl, h1, List.append_assoc]
  · intro y hy
    rw [List.mem_append, List.mem_singleton] at hy
    rcases hy with hy | rfl
    exacts [h2 y hy, hx]

theorem Previous.mono {i : ℕ} {l : UInt64} {m' : ℕ} (h : Previous c0 input m i l) (hm : m ≤ m') :
    Previous c0 input m' i l := by
  rcases h with h | ⟨k, hk, h⟩
  · exact .inl h
  · exact .inr ⟨k, by omega, h⟩

theorem Grd.mono (h : Grd clock c0 input m c) {m' : ℕ} (hm : m ≤ m') : Grd clock c0 input m' c :=
  { h with last := fun i l hl => (h.last i l hl).mono hm }

/-- What `recv_msg` leaves in `*last_ts`. -/
theorem recvMsg_last {now : UInt64} {buf : Bytes} {off len : ℕ} {msgno frm rcp : UInt8} {pk sid : B32}
    {eps last last' : UInt64} {r : Int} {k : ℕ}
    (h : recvMsg now buf off len msgno frm rcp pk sid eps last = .ok (r, last', k)) :
    last' = last ∨ last' = tsAt buf off := by
  unfold recvMsg at h
  rw [C.bind_eq_ok] at h
  obtain ⟨_, _, h⟩ := h
  split at h
  · cases h; exact .inl rfl
  rw [C.bind_eq_ok] at h
  obtain ⟨_, _, h⟩ := h
  split at h
  · cases h; exact .inl rfl
  rw [C.bind_eq_ok] at h
  obtain ⟨_, _, h⟩ := h
  split at h
  · cases h; exact .inl rfl
  rw [C.bind_eq_ok] at h
  obtain ⟨_, _, h⟩ := h
  split at h
  · cases h; exact .inl rfl
  rw [C.bind_eq_ok] at h
  obtain ⟨_, _, h⟩ := h
  split at h
  · cases h; exact .inl rfl
  rw [C.bind_eq_ok] at h
  obtain ⟨ts, hts, h⟩ := h
  have ets : htonll (u64 ts) = tsAt buf off := by
    unfold rd at hts
    split at hts
    · cases hts; rfl
    · cases hts
  have hc : (checkTs now eps last (htonll (u64 ts))).2.1 = last ∨
      (checkTs now eps last (htonll (u64 ts))).2.1 = htonll (u64 ts) := by
    unfold checkTs
    split_ifs <;> simp
  rw [ets] at hc
  rw [ets] at h
  dsimp only at h
  suffices last' = (checkTs now eps last (tsAt buf off)).2.1 by rw [this]; exact hc
  split at h
  · cases h; rfl
  split at h
  · cases h
  rw [C.bind_eq_ok] at h
  obtain ⟨_, _, h⟩ := h
  rw [C.bind_eq_ok] at h
  obtain ⟨_, _, h⟩ := h
  rw [C.bind_eq_ok] at h
  obtain ⟨_, _, h⟩ := h
  split at h <;> cases h <;> rfl

theorem grd_recv (h : Grd clock c0 input m c) {e : Exp} (he : (expected c0 input)[m]? = some e) {r : Int}
    {last last' : UInt64} {k : ℕ} (hl : c.lastTs[e.i]? = some last)
    (hr : recvMsg (clock c.ticks) input e.off e.len e.msgno (idx e.i) e.rcp e.pk c.sid c.eps last = .ok (r, last', k)) :
    Got clock c0 input m e r ∧ Grd clock c0 input (m + 1) (received c e.i last' k) := by
  have hp := h.last _ _ hl
  refine ⟨⟨he, c.ticks, last, last', k, h.ticks, hp, ?_⟩, { h with ticks := ?_, last := ?_ }⟩
  · rw [← h.sid, ← h.eps]; exact hr
  · exact le_trans h.ticks (Nat.le_add_right _ _)
  · intro i l hi
    by_cases hie : e.i = i
    · subst hie
      have hlt : e.i < c.lastTs.length := by
        by_contra hc
        rw [List.getElem?_eq_none (by omega)] at hl
        cases hl
      change (c.lastTs.set e.i last')[e.i]? = some l at hi
      rw [List.getElem?_set_self hlt] at hi
      cases hi
      rcases recvMsg_last hr with h' | h'
      · rw [h']
        exact hp.mono (Nat.le_succ _)
      · exact .inr ⟨m, Nat.lt_succ_self _, e, he, rfl, h'⟩
    · change (c.lastTs.set e.i last')[i]? = some l at hi
      rw [List.getElem?_set_ne hie] at hi
      exact (h.last i l hi).mono (Nat.le_succ _)

theorem Grd.grown (h : Grd clock c0 input m c) : Grown clock c0 input c :=
  ⟨h.log, fun i l hl => ⟨m, h.last i l hl⟩⟩

theorem Grd.pkOf (h : Grd clock c0 input m c) (h1 : c0.step ≠ 1) (i : ℕ) : pkOf c i = TpDkg.pkOf c0 i := by
  unfold TpDkg.pkOf
  rw [h.pks h1]

theorem exps_get {f : ℕ → Exp} {n k : ℕ} (h : k < n) : (exps f n)[k]? = some (f k) := by
  unfold exps
  rw [List.getElem?_map, List.getElem?_range h]
  rfl

/-! ### The handlers -/

variable {log : Bool} {out : Bytes} {w r : ℕ} {loc : List UInt16}

/-- What is shown of the handlers. -/
abbrev Grows (clock : ℕ → UInt64) (c0 : TP) (input : Bytes) (m : H Run Int) : Prop :=
  ∀ out w r loc, Wp m True (fun _ s => Grown clock c0 input s.ctx) (fun _ s => Grown clock c0 input s.ctx)
    ⟨c0, out, w, r, loc⟩

theorem gr_tp1 (h : c0.step = 0) : Grows clock c0 input (tp1 clock log input) := by
  intro out w r loc
  unfold tp1
  rw [wp_bind, wp_get, wp_ite]
  refine ⟨fun _ => grd_start.grown, fun _ => ?_⟩
  rw [wp_ite]
  refine ⟨fun _ => grd_start.grown, fun _ => ?_⟩
  rw [wp_bind]
  refine wp_forN (fun _ s => Grd clock c0 input 0 s.ctx) grd_start (fun k s _ hs => ?_) (fun s hs => hs.grown)
  rw [wp_bind]
  refine gr_send fun out => ?_
  rw [wp_bind, wp_get]
  refine gr_dump ?_
  exact { hs with ticks := le_trans hs.ticks (Nat.le_succ _) }

theorem gr_end {s : Run} (hs : Grown clock c0 input s.ctx) {code : Int} {off len : ℕ} {msgno rcp : UInt8} :
    Wp (do noCheaters code; tpSend clock off len msgno rcp; tpTranscript; pure (0 : Int)) True
      (fun _ s => Grown clock c0 input s.ctx) (fun _ s => Grown clock c0 input s.ctx) s := by
  rw [wp_bind]
  refine gr_noCheaters hs ?_
  rw [wp_bind]
  refine gr_send fun out => ?_
  rw [wp_bind]
  unfold tpTranscript
  rw [wp_modify, wp_pure]
  exact hs

theorem gr_tp4 (h1 : c0.step = 1) : Grows clock c0 input (tp4 clock log input) := by
  intro out w r loc
  unfold tp4
  rw [wp_bind, wp_get]
  dsimp only
  rw [wp_ite]
  refine ⟨fun _ => grd_start.grown, fun _ => ?_⟩
  rw [wp_ite]
  refine ⟨fun _ => grd_start.grown, fun _ => ?_⟩
  rw [wp_bind, wp_modify, wp_bind]
  refine wp_forN (fun i s => Grd clock c0 input i s.ctx) grd_start (fun i s hi hs => ?_)
    (fun s hs => gr_end hs.grown)
  have he : (expected c0 input)[i]? = some (exp4 input i) := by
    unfold expected
    simp only [h1]
    exact exps_get hi
  unfold tp4Body
  dsimp only
  rw [wp_bind]
  refine gr_dump ?_
  rw [wp_bind, wp_get, wp_bind]
  refine gr_lift fun sig _ => ?_
  rw [wp_bind]
  refine gr_lift fun m _ => ?_
  rw [wp_bind]
  refine gr_lift fun lt _ => ?_
  rw [wp_ite]
  refine ⟨fun _ => hs.grown, fun _ => ?_⟩
  rw [wp_bind]
  refine gr_lift fun pk hpk => ?_
  rw [wp_bind]
  refine gr_recv fun r last last' k hl hr => ?_
  have hpk' : pk = slice input (i * 239 + 111) 32 := by
    unfold rd at hpk
    split at hpk
    · cases hpk; rfl
    · cases hpk
  subst hpk'
  obtain ⟨hg, hs'⟩ := grd_recv hs he hl hr
  rw [wp_ite]
  refine ⟨fun h0 => ?_, fun _ => ?_⟩
  · refine gr_addCheater hs'.grown fun x _ h2 => ?_
    exact grd_report hs' (.rejected i _ r x hg h0) h2
  · rw [wp_bind]
    refine gr_setSigPk fun pks => ?_
    refine gr_copyOut fun out w => ?_
    exact { hs' with pks := fun h => absurd h1 h }

theorem nest {n i j : ℕ} (hj : j < n) : (i * n + j) % n = j ∧ (i * n + j) / n = i := by
  constructor
  · rw [Nat.mul_comm, Nat.mul_add_mod, Nat.mod_eq_of_lt hj]
  · rw [Nat.mul_comm, Nat.mul_add_div (by omega), Nat.div_eq_of_lt hj, Nat.add_zero]

theorem gr_tp68 (h23 : c0.step = 2 ∨ c0.step = 3) : Grows clock c0 input (tp68 clock log input) := by
  intro out w r loc
  unfold tp68
  rw [wp_bind, wp_get]
  dsimp only
  rw [wp_ite]
  refine ⟨fun _ => grd_start.grown, fun _ => ?_⟩
  rw [wp_ite]
  refine ⟨fun _ => grd_start.grown, fun _ => ?_⟩
  rw [wp_bind, wp_modify, wp_bind]
  refine wp_forN (fun i s => Grd clock c0 input (i * c0.n.toNat) s.ctx) (by simpa using grd_start) (fun i s hi hs => ?_)
    (fun s hs => ?_)
  swap
  · rw [wp_bind]
    exact gr_noCheaters hs.grown hs.grown
  refine wp_forN (fun j s => Grd clock c0 input (i * c0.n.toNat + j) s.ctx) hs (fun j s hj hs => ?_)
    (fun s hs => by
      rw [Nat.succ_mul]
      exact hs)
  have hm : i * c0.n.toNat + j < c0.n.toNat * c0.n.toNat := by
    have := Nat.mul_le_mul_right c0.n.toNat (show i + 1 ≤ c0.n.toNat from hi)
    rw [Nat.succ_mul] at this
    omega
  have he : (expected c0 input)[i * c0.n.toNat + j]? = some (exp68 c0 (i * c0.n.toNat + j)) := by
    unfold expected
    rcases h23 with h | h <;> simp only [h] <;> exact exps_get hm
  have hs1 : c0.step ≠ 1 := by omega
  obtain ⟨e1, e2⟩ := nest (i := i) hj
  have ee : exp68 c0 (i * c0.n.toNat + j) = ⟨j, (j * c0.n.toNat + i) * 159, 159, UInt8.ofNat (2 + c0.step), idx i,
      TpDkg.pkOf c0 j, 6 + ((c0.step : Int) - 1) * 2, 64, idx i⟩ := by
    unfold exp68
    dsimp only
    rw [e1, e2]
  rw [ee] at he
  unfold tp68Body
  dsimp only
  rw [wp_bind]
  refine gr_sigPkOf fun pk hpk => ?_
  rw [hs.pkOf hs1] at hpk
  subst hpk
  rw [wp_bind]
  refine gr_recv fun r last last' k hl hr => ?_
  obtain ⟨hg, hs'⟩ := grd_recv hs he hl hr
  rw [wp_ite]
  refine ⟨fun h0 => ?_, fun _ => ?_⟩
  · rw [wp_bind]
    refine gr_addCheater hs'.grown fun x _ h2 => ?_
    have h3 := grd_report hs' (.rejected _ _ r x hg h0) h2
    rw [wp_ite]
    exact ⟨fun _ => gr_lift fun _ h => (by cases h), fun _ => gr_dump h3⟩
  · exact gr_copyOut fun out w => hs'

theorem gr_tp12 (h4 : c0.step = 4) : Grows clock c0 input (tp12 clock log input) := by
  intro out w r loc
  unfold tp12
  rw [wp_bind, wp_get]
  dsimp only
  rw [wp_ite]
  refine ⟨fun _ => grd_start.grown, fun _ => ?_⟩
  rw [wp_ite]
  refine ⟨fun _ => grd_start.grown, fun _ => ?_⟩
  rw [wp_bind, wp_modify, wp_bind]
  refine wp_forN (fun i s => Grd clock c0 input i s.ctx) grd_start (fun i s hi hs => ?_)
    (fun s hs => gr_end hs.grown)
  have he : (expected c0 input)[i]? = some (exp12 c0 i) := by
    unfold expected
    simp only [h4]
    exact exps_get hi
  have hs1 : c0.step ≠ 1 := by omega
  unfold tp12Body
  dsimp only
  rw [wp_bind]
  refine gr_dump ?_
  rw [wp_bind]
  refine gr_sigPkOf fun pk hpk => ?_
  rw [hs.pkOf hs1] at hpk
  subst hpk
  rw [wp_bind]
  refine gr_recv fun r last last' k hl hr => ?_
  obtain ⟨hg, hs'⟩ := grd_recv hs he hl hr
  rw [wp_ite]
  refine ⟨fun h0 => ?_, fun _ => ?_⟩
  · refine gr_addCheater hs'.grown fun x _ h2 => ?_
    exact grd_report hs' (.rejected i _ r x hg h0) h2
  · rw [wp_bind]
    refine gr_lift fun data _ => ?_
    rw [wp_bind]
    refine gr_setCommitments fun pks => ?_
    refine gr_copyOut fun out w => ?_
    exact { hs' with }

theorem gr_tp14 (h5 : c0.step = 5) : Grows clock c0 input (tp14 clock log input) := by
  intro out w r loc
  unfold tp14
  rw [wp_bind, wp_get]
  dsimp only
  rw [wp_ite]
  refine ⟨fun _ => grd_start.grown, fun _ => ?_⟩
  rw [wp_ite]
  refine ⟨fun _ => grd_start.grown, fun _ => ?_⟩
  rw [wp_bind, wp_modify, wp_bind]
  refine wp_forN (fun i s => Grd clock c0 input (i * c0.n.toNat) s.ctx) (by simpa using grd_start) (fun i s hi hs => ?_)
    (fun s hs => ?_)
  swap
  · rw [wp_bind]
    refine gr_noCheaters hs.grown ?_
    rw [wp_bind]
    exact gr_keepShares fun es => hs.grown
  refine wp_forN (fun j s => Grd clock c0 input (i * c0.n.toNat + j) s.ctx) hs (fun j s hj hs => ?_)
    (fun s hs => by
      rw [Nat.succ_mul]
      exact hs)
  have hm : i * c0.n.toNat + j < c0.n.toNat * c0.n.toNat := by
    have := Nat.mul_le_mul_right c0.n.toNat (show i + 1 ≤ c0.n.toNat from hi)
    rw [Nat.succ_mul] at this
    omega
  have he : (expected c0 input)[i * c0.n.toNat + j]? = some (exp14 c0 (i * c0.n.toNat + j)) := by
    unfold expected
    simp only [h5]
    exact exps_get hm
  have hs1 : c0.step ≠ 1 := by omega
  obtain ⟨e1, e2⟩ := nest (i := i) hj
  have ee : exp14 c0 (i * c0.n.toNat + j) = ⟨j, (j * c0.n.toNat + i) * 256, 256, 8, idx i, TpDkg.pkOf c0 j, 14, 64,
      idx i⟩ := by
    unfold exp14
    dsimp only
    rw [e1, e2]
  rw [ee] at he
  unfold tp14Body
  dsimp only
  rw [wp_bind]
  refine gr_dump ?_
  rw [wp_bind]
  refine gr_sigPkOf fun pk hpk => ?_
  rw [hs.pkOf hs1] at hpk
  subst hpk
  rw [wp_bind]
  refine gr_recv fun r last last' k hl hr => ?_
  obtain ⟨hg, hs'⟩ := grd_recv hs he hl hr
  rw [wp_ite]
  refine ⟨fun h0 => ?_, fun _ => ?_⟩
  · refine gr_addCheater hs'.grown fun x _ h2 => ?_
    exact grd_report hs' (.rejected _ _ r x hg h0) h2
  · exact gr_copyOut fun out w => hs'

theorem gr_tp20 (h8 : c0.step = 8) : Grows clock c0 input (tp20 clock log input) := by
  intro out w r loc
  unfold tp20
  rw [wp_bind, wp_get]
  dsimp only
  rw [wp_ite]
  refine ⟨fun _ => grd_start.grown, fun _ => ?_⟩
  rw [wp_ite]
  refine ⟨fun _ => grd_start.grown, fun _ => ?_⟩
  rw [wp_bind]
  refine gr_setOut fun out => ?_
  rw [wp_bind]
  refine wp_forN (fun i s => Grd clock c0 input i s.ctx) grd_start (fun i s hi hs => ?_) (fun s hs => ?_)
  swap
  · rw [wp_bind]
    refine gr_send fun out => ?_
    rw [wp_bind, wp_get, wp_ite]
    refine ⟨fun _ => hs.grown, fun _ => ?_⟩
    rw [wp_bind, wp_setCtx]
    exact hs.grown
  have he : (expected c0 input)[i]? = some (exp20 c0 i) := by
    unfold expected
    simp only [h8]
    exact exps_get hi
  have hs1 : c0.step ≠ 1 := by omega
  unfold tp20Body
  dsimp only
  rw [wp_bind]
  refine gr_dump ?_
  rw [wp_bind]
  refine gr_sigPkOf fun pk hpk => ?_
  rw [hs.pkOf hs1] at hpk
  subst hpk
  rw [wp_bind]
  refine gr_recv fun r last last' k hl hr => ?_
  obtain ⟨hg, hs'⟩ := grd_recv hs he hl hr
  rw [wp_ite]
  refine ⟨fun h0 => ?_, fun _ => ?_⟩
  · rw [wp_bind]
    refine gr_addCheater hs'.grown fun x _ h2 => ?_
    exact gr_setOut fun _ => grd_report hs' (.rejected i _ r x hg h0) h2
  · rw [wp_bind]
    refine gr_lift fun data hd => ?_
    rw [wp_ite]
    refine ⟨fun hne => ?_, fun _ => hs'⟩
    rw [wp_bind]
    refine gr_addCheater hs'.grown fun x _ h2 => ?_
    refine gr_setOut fun _ => grd_report hs' (.otherHash i x h8 hi ?_) h2
    intro hsame
    unfold rd at hd
    split at hd
    · cases hd
      exact hne hsame.symm
    · cases hd

theorem gr_tp22 (h9 : c0.step = 9) : Grows clock c0 input (tp22 clock log input) := by
  intro out w r loc
  unfold tp22
  rw [wp_bind, wp_get]
  dsimp only
  rw [wp_ite]
  refine ⟨fun _ => grd_start.grown, fun _ => ?_⟩
  rw [wp_ite]
  refine ⟨fun _ => grd_start.grown, fun _ => ?_⟩
  rw [wp_bind]
  refine wp_forN (fun i s => Grd clock c0 input i s.ctx) grd_start (fun i s hi hs => ?_) (fun s hs => ?_)
  swap
  · rw [wp_bind]
    exact gr_noCheaters hs.grown hs.grown
  have he : (expected c0 input)[i]? = some (exp22 c0 i) := by
    unfold expected
    simp only [h9]
    exact exps_get hi
  have hs1 : c0.step ≠ 1 := by omega
  unfold tp22Body
  dsimp only
  rw [wp_bind]
  refine gr_dump ?_
  rw [wp_bind]
  refine gr_sigPkOf fun pk hpk => ?_
  rw [hs.pkOf hs1] at hpk
  subst hpk
  rw [wp_bind]
  refine gr_recv fun r last last' k hl hr => ?_
  obtain ⟨hg, hs'⟩ := grd_recv hs he hl hr
  rw [wp_ite]
  refine ⟨fun h0 => ?_, fun _ => ?_⟩
  · refine gr_addCheater hs'.grown fun x _ h2 => ?_
    exact grd_report hs' (.rejected i _ r x hg h0) h2
  · rw [wp_bind]
    exact gr_lift fun _ _ => hs'

/-! ### The complaints -/

/-- The recorded complaints stem from the messages before complaint `k` of peer `i`. -/
def Stems (c0 : TP) (input : Bytes) (i k : ℕ) (c : TP) : Prop :=
  c.complaintsLen.toNat ≤ i * 255 + k ∧ c.complaintsLen.toNat ≤ c.complaints.length ∧
  ∃ ps : List (ℕ × UInt8), ps.Nodup ∧ c.known = ps.map (fun p => pair (idx p.1) p.2) ∧
    ∀ p ∈ ps, p.1 < c0.n.toNat ∧ ∃ k' < countOf c0 input p.1, accusedBy c0 input p.1 k' = p.2 ∧ (p.1 < i ∨ p.1 = i ∧ k' < k)

theorem Stems.same {c' : TP} {i k : ℕ} (h : Stems c0 input i k c) (h1 : c'.complaints = c.complaints)
    (h2 : c'.complaintsLen = c.complaintsLen) : Stems c0 input i k c' := by
  unfold Stems TP.known at *
  rw [h1, h2]
  exact h

theorem Stems.next {i k : ℕ} (h : Stems c0 input i k c) {k' : ℕ} (hk : k ≤ k') : Stems c0 input i k' c := by
  obtain ⟨h1, h2, ps, h3, h4, h5⟩ := h
  refine ⟨by omega, h2, ps, h3, h4, fun p hp => ?_⟩
  obtain ⟨a, k1, b, e, d⟩ := h5 p hp
  exact ⟨a, k1, b, e, d.imp id fun d => ⟨d.1, by omega⟩⟩

theorem Stems.peer {i k : ℕ} (h : Stems c0 input i k c) (hk : k ≤ 255) : Stems c0 input (i + 1) 0 c := by
  obtain ⟨h1, h2, ps, h3, h4, h5⟩ := h
  have h1' : c.complaintsLen.toNat ≤ (i + 1) * 255 + 0 := by
    rw [Nat.add_zero, Nat.add_mul, Nat.one_mul]
    exact Nat.le_trans h1 (Nat.add_le_add_left hk _)
  refine ⟨h1', h2, ps, h3, h4, fun p hp => ?_⟩
  obtain ⟨a, k1, b, e, d⟩ := h5 p hp
  exact ⟨a, k1, b, e, .inl (by omega)⟩

theorem gr_tp16Inner (h6 : c0.step = 6) {i k m d : ℕ} (hi : i < c0.n.toNat) (hk : k < countOf c0 input i)
    (hd : d = i * msg9Size c0.n + 111) {s : Run} (hs : Grd clock c0 input m s.ctx) (hc : Stems c0 input i k s.ctx) :
    Wp (tp16Inner input d i k) True (fun _ s => Grown clock c0 input s.ctx)
      (fun _ s => Grd clock c0 input m s.ctx ∧ Stems c0 input i (k + 1) s.ctx) s := by
  have hn := c0.n.toNat_lt
  have hcnt : countOf c0 input i < 256 := UInt8.toNat_lt _
  unfold tp16Inner
  rw [wp_bind]
  refine gr_lift fun x hx => ?_
  have hx' : x = accusedBy c0 input i k := by
    unfold accusedBy
    unfold ld at hx
    split at hx
    · rename_i h
      cases hx
      rw [hd] at h
      rw [List.getD_eq_getElem?_getD, show i * msg9Size c0.n + 112 + k = i * msg9Size c0.n + 111 + (k + 1) by omega, h]
      rfl
    · cases hx
  subst hx'
  rw [wp_bind, wp_get, wp_ite]
  refine ⟨fun hr => ?_, fun hr => ?_⟩
  · refine gr_addCheater hs.grown fun x _ h2 => ?_
    refine ⟨grd_report hs (.noPeer i k x h6 hi hk ?_) h2, (hc.same rfl rfl).next (Nat.le_succ _)⟩
    rw [hs.n] at hr
    rcases hr with hr | hr
    · exact .inr hr
    · refine .inl (UInt8.toNat_inj.1 ?_)
      have := UInt8.lt_iff_toNat_lt.1 hr
      simpa using this
  · dsimp only
    rw [wp_bind]
    refine gr_lift fun known hkn => ?_
    have hkn' : known = s.ctx.known := by
      unfold rd at hkn
      split at hkn
      · cases hkn; rfl
      · cases hkn
    subst hkn'
    obtain ⟨h1, h2, ps, h3, h4, h5⟩ := hc
    rw [wp_ite]
    refine ⟨fun hmem => ?_, fun hmem => ?_⟩
    · refine gr_addCheater hs.grown fun x _ h2' => ?_
      refine ⟨grd_report hs ?_ h2', Stems.next (k := k) (.same (c := s.ctx) ⟨h1, h2, ps, h3, h4, h5⟩ rfl rfl) (Nat.le_succ _)⟩
      rw [h4] at hmem
      obtain ⟨p, hp, e⟩ := List.mem_map.1 hmem
      obtain ⟨a, k', b, e', d'⟩ := h5 p hp
      obtain ⟨e1, e2⟩ := pair_inj e
      have e3 : p.1 = i := by
        have := congrArg UInt8.toNat e1
        unfold idx at this
        rw [UInt8.toNat_ofNat', UInt8.toNat_ofNat'] at this
        have hn' : c0.n.toNat < 256 := hn
        omega
      have hk' : k' < k := by omega
      rw [e3, e2] at e'
      exact .twice i k k' x h6 hi hk hk' e'
    · refine gr_addComplaint fun hlt => ?_
      have hnew : (s.ctx.complaintsLen + 1).toNat = s.ctx.complaintsLen.toNat + 1 := by
        have hb : i * 255 + k + 1 < 65536 := by
          have : i ≤ 254 := by omega
          omega
        have : (1 : UInt16).toNat = 1 := rfl
        rw [UInt16.toNat_add, this]
        exact Nat.mod_eq_of_lt (by omega)
      refine ⟨{ hs with }, ?_, ?_, ps ++ [(i, accusedBy c0 input i k)], ?_, ?_, ?_⟩
      · show (s.ctx.complaintsLen + 1).toNat ≤ _
        omega
      · show (s.ctx.complaintsLen + 1).toNat ≤ (List.set _ _ _).length
        rw [List.length_set]
        omega
      · rw [List.nodup_append]
        refine ⟨h3, by simp, ?_⟩
        intro a ha b hb e
        rw [List.mem_singleton] at hb
        subst hb
        subst e
        exact hmem (by rw [h4]; exact List.mem_map.2 ⟨_, ha, rfl⟩)
      · unfold TP.known at h4 ⊢
        show List.take (s.ctx.complaintsLen + 1).toNat _ = _
        rw [hnew, List.take_add_one, List.getElem?_set_self hlt, List.take_set_of_le (Nat.le_refl _), h4]
        simp
      · intro p hp
        rw [List.mem_append, List.mem_singleton] at hp
        rcases hp with hp | rfl
        · obtain ⟨a, k1, b, e, d⟩ := h5 p hp
          exact ⟨a, k1, b, e, d.imp id fun d => ⟨d.1, by omega⟩⟩
        · exact ⟨hi, k, hk, rfl, .inr ⟨rfl, Nat.lt_succ_self _⟩⟩

theorem gr_tp16 (h6 : c0.step = 6) : Grows clock c0 input (tp16 clock log input) := by
  intro out w r loc
  unfold tp16
  rw [wp_bind, wp_get]
  dsimp only
  rw [wp_ite]
  refine ⟨fun _ => grd_start.grown, fun _ => ?_⟩
  rw [wp_ite]
  refine ⟨fun _ => grd_start.grown, fun _ => ?_⟩
  rw [wp_bind, wp_setCtx, wp_bind, wp_modify, wp_bind]
  refine wp_forN (fun i s => Grd clock c0 input i s.ctx ∧ Stems c0 input i 0 s.ctx)
    ⟨{ grd_start (clock := clock) (c := c0) (input := input) with }, by simp, by simp, [], by simp, by simp [TP.known], by simp⟩
    (fun i s hi hs => ?_) (fun s hs => ?_)
  swap
  · obtain ⟨hs, h1, h2, ps, h3, h4, h5⟩ := hs
    rw [wp_bind, wp_get]
    have key : Wp (if s.ctx.complaintsLen.toNat ≥ s.ctx.t.toNat * s.ctx.t.toNat then do
          addCheater 16 6 254 254 6
          H.ret 5
        else do
          noCheaters 5
          tpSend clock 0 s.out.length 10 255
          tpTranscript
          pure (0 : Int)) True (fun _ s => Grown clock c0 input s.ctx) (fun _ s => Grown clock c0 input s.ctx) s := by
      rw [wp_ite]
      refine ⟨fun hl => ?_, fun _ => gr_end hs.grown⟩
      rw [wp_bind]
      refine gr_addCheater hs.grown fun x _ h2' => ?_
      refine (grd_report hs (.tooMany ps x h6 h3 ?_ fun p hp => ?_) h2').grown
      · have : ps.length = s.ctx.complaintsLen.toNat := by
          have := congrArg List.length h4
          unfold TP.known at this
          rw [List.length_take, List.length_map] at this
          omega
        rw [hs.t] at hl
        omega
      · obtain ⟨a, k', b, e, _⟩ := h5 p hp
        exact ⟨a, k', b, e⟩
    rw [wp_ite]
    refine ⟨fun _ => ?_, fun _ => key⟩
    rw [wp_bind]
    exact gr_lift fun _ _ => key
  obtain ⟨hs, hc⟩ := hs
  have he : (expected c0 input)[i]? = some (exp16 c0 i) := by
    unfold expected
    simp only [h6]
    exact exps_get hi
  have hs1 : c0.step ≠ 1 := by omega
  unfold tp16Body
  dsimp only
  rw [wp_bind]
  refine gr_dump ?_
  rw [wp_bind]
  refine gr_sigPkOf fun pk hpk => ?_
  rw [hs.pkOf hs1] at hpk
  subst hpk
  rw [wp_bind]
  refine gr_recv fun r last last' k hl hr => ?_
  obtain ⟨hg, hs'⟩ := grd_recv hs he hl hr
  have hc' : Stems c0 input i 0 (received s.ctx i last' k) := hc.same rfl rfl
  rw [wp_ite]
  refine ⟨fun h0 => ?_, fun _ => ?_⟩
  · refine gr_addCheater hs'.grown fun x _ h2 => ?_
    exact ⟨grd_report hs' (.rejected i _ r x hg h0) h2, (hc'.same rfl rfl).peer (by omega)⟩
  · rw [wp_bind]
    refine gr_lift fun l _ => ?_
    rw [wp_bind]
    refine gr_lift fun d hd => ?_
    have hd' : d.toNat = countOf c0 input i := by
      unfold countOf
      unfold ld at hd
      split at hd
      · rename_i h
        cases hd
        rw [List.getD_eq_getElem?_getD]
        have h' : input[i * msg9Size c0.n + 111]? = some d := h
        rw [h']
        rfl
      · cases hd
    rw [wp_ite]
    refine ⟨fun _ => hs'.grown, fun _ => ?_⟩
    rw [wp_bind]
    have hcnt : countOf c0 input i < 256 := UInt8.toNat_lt _
    refine wp_forN (fun k s => Grd clock c0 input (i + 1) s.ctx ∧ Stems c0 input i k s.ctx) ⟨hs', hc'⟩
      (fun k s hk hs => ?_) (fun s hs => ?_)
    · exact gr_tp16Inner h6 hi (by omega) rfl hs.1 hs.2
    · refine gr_copyOut fun out w => ⟨hs.1, hs.2.peer ?_⟩
      omega

end

variable (G : Type) [Ristretto G] [NoiseCrypto] [Mac]

/-- Where the reports of a call in a step other than 7 come from. -/
theorem grounds {clock : ℕ → UInt64} {log : Bool} {scratch : B32} {c c' : TP} {input out o : Bytes} {r : Int}
    (h7 : c.step ≠ 7) (hr : tpNext G clock log scratch c input out = .ok (r, c', o)) : Grown clock c input c' := by
  by_cases h9 : c.step ≤ 9
  · have hw : Wp (tpHandler G clock log scratch input c.step) True (fun _ s => Grown clock c input s.ctx)
        (fun _ s => Grown clock c input s.ctx) ⟨c, out, 0, 0, []⟩ := by
      unfold tpHandler
      split
      · exact gr_tp1 ‹_› _ _ _ _
      · exact gr_tp4 ‹_› _ _ _ _
      · exact gr_tp68 (.inl ‹_›) _ _ _ _
      · exact gr_tp68 (.inr ‹_›) _ _ _ _
      · exact gr_tp12 ‹_› _ _ _ _
      · exact gr_tp14 ‹_› _ _ _ _
      · exact gr_tp16 ‹_› _ _ _ _
      · exact absurd ‹_› h7
      · exact gr_tp20 ‹_› _ _ _ _
      · exact gr_tp22 ‹_› _ _ _ _
      · exact grd_start.grown
    obtain ⟨s, hs, rfl, rfl⟩ := tpNext_elim G h9 hw hr
    have : Grown clock c input s.ctx := hs.elim id id
    unfold after
    split <;> exact this
  · rw [tpNext_ended G (by omega)] at hr
    cases hr
    exact grd_start.grown

end Verif.TpDkg
