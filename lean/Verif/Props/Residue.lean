import Verif.Model.Residue
import Verif.Props.Toprf
import Verif.Proofs.Dkg

/-!
# What is left on the stack (C72)
-/

set_option linter.unusedSectionVars false

namespace Verif.Props

open Verif.Residue Verif.Spec Ristretto Polynomial

/-- The call has not touched the buffer, or has erased it; it is not locked any more. -/
def Clean (m0 m : Stack) (v : Var) : Prop := (m v).locked = false ∧ (m v = m0 v ∨ ∀ b ∈ (m v).bytes, b = 0)

section
variable {α β : Type}

theorem bind_run (x : M α) (f : α → M β) (m : Stack) : (x >>= f) m = (x m >>= fun p => f p.1 p.2) := rfl
theorem pure_run (a : α) (m : Stack) : (pure a : M α) m = .ok (a, m) := rfl
theorem get_run (m : Stack) : (get : M Stack) m = .ok (m, m) := rfl
theorem put_run (v : Var) (b : Bytes) (m : Stack) :
    Residue.put v b m = .ok ((), fun w => if w = v then { m v with bytes := b } else m w) := rfl
theorem munlock_run (v : Var) (m : Stack) :
    munlock v m = .ok ((), fun w => if w = v then ⟨List.replicate (m v).bytes.length 0, false⟩ else m w) := rfl
theorem mlock_run (v : Var) (m : Stack) :
    mlock v true m = .ok (0, fun w => if w = v then { m v with locked := true } else m w) := rfl
theorem mlock_fail (v : Var) (m : Stack) : mlock v false m = .ok (-1, m) := rfl
theorem lift_run (x : C α) (m : Stack) : Residue.lift x m = x >>= fun a => .ok (a, m) := rfl
theorem if_run (c : Prop) [Decidable c] (x y : M α) (m : Stack) : (if c then x else y) m = if c then x m else y m := by
  split <;> rfl

end

section
variable (G : Type) [Ristretto G] [Hashes]

/-- **C72.** `oprf_Finalize` erases its hash state on every path. -/
theorem C72_finalize (l : Bool) (x : Bytes) (xLen : UInt16) (N : B32) (out0 : B64) (m0 : Stack) (hm : ∀ v, (m0 v).locked = false) :
    Prod.fst <$> Residue.finalize l x xLen N out0 m0 = Oprf.finalize l x xLen N out0 ∧
      ∀ r m, Residue.finalize l x xLen N out0 m0 = .ok (r, m) → ∀ v, Clean m0 m v := by
  unfold Residue.finalize Oprf.finalize
  cases l with
  | false =>
    simp only [bind_run, mlock_fail, C.ok_bind, if_true, pure_run, C.map_ok, Bool.not_false, true_and]
    intro r m h v
    cases h
    exact ⟨hm v, .inl rfl⟩
  | true =>
    simp only [bind_run, mlock_run, C.ok_bind, if_run, show ¬ ((0 : Int) = -1) by decide, if_false, pure_run, put_run, lift_run,
      munlock_run, Bool.not_true, Bool.false_eq_true]
    cases hx : rd x 0 xLen.toNat with
    | ub u => exact ⟨rfl, fun r m h => by cases h⟩
    | ok xs =>
      refine ⟨rfl, fun r m h v => ?_⟩
      cases h
      by_cases hv : v = .hash
      · subst hv
        exact ⟨rfl, .inr fun b hb => by simpa using List.eq_of_mem_replicate hb⟩
      · simp [Clean, hv, hm]

/-- **C72.** `oprf_Unblind` erases the inverse of the blinding factor on every path. -/
theorem C72_unblind (l : Bool) (r Z N0 : B32) (m0 : Stack) (hm : ∀ v, (m0 v).locked = false) :
    ∃ m, Residue.unblind G l r Z N0 m0 = .ok (Oprf.unblind G l r Z N0, m) ∧ ∀ v, Clean m0 m v := by
  have hc : ∀ (m1 : Stack), (∀ v, v ≠ .ir → m1 v = m0 v) → ∀ v, Clean m0
      (fun w => if w = Var.ir then ⟨List.replicate (m1 .ir).bytes.length 0, false⟩ else m1 w) v := by
    intro m1 h v
    by_cases hv : v = .ir
    · subst hv
      exact ⟨rfl, .inr fun b hb => by simpa using List.eq_of_mem_replicate hb⟩
    · simp [Clean, hv, h v hv, hm]
  unfold Residue.unblind Oprf.unblind
  by_cases h1 : isValidPoint G Z ≠ 1
  · rw [if_pos h1, if_pos h1]
    exact ⟨m0, rfl, fun v => ⟨hm v, .inl rfl⟩⟩
  rw [if_neg h1, if_neg h1]
  cases l with
  | false => exact ⟨m0, rfl, fun v => ⟨hm v, .inl rfl⟩⟩
  | true =>
    simp only [bind_run, mlock_run, C.ok_bind, if_run, show ¬ ((0 : Int) = -1) by decide, if_false, pure_run, put_run,
      munlock_run, Bool.not_true, Bool.false_eq_true]
    by_cases h2 : (scalarInvert r).1 ≠ 0
    · rw [if_pos h2, if_pos h2]
      exact ⟨_, rfl, hc _ fun v hv => by simp [hv]⟩
    rw [if_neg h2, if_neg h2]
    by_cases h3 : (scalarmult G N0 (scalarInvert r).2 Z).1 ≠ 0
    · rw [if_pos h3, if_pos h3]
      exact ⟨_, rfl, hc _ fun v hv => by simp [hv]⟩
    · rw [if_neg h3, if_neg h3]
      exact ⟨_, rfl, hc _ fun v hv => by simp [hv]⟩

theorem shareLoop_fst (a : List B32) (n : UInt8) : ∀ (fuel : ℕ) (i : UInt8) (s : List Share × Bytes),
    Prod.fst <$> forLeU8 (Residue.shareStep a) n fuel i s = forLeU8 (Dkg.shareStep a) n fuel i s.1 := by
  intro fuel
  induction fuel with
  | zero => exact fun _ _ => rfl
  | succ f ih =>
    intro i s
    unfold forLeU8
    split
    · have h : ∀ s, Residue.shareStep a i s = Dkg.shareStep a i s.1 >>= fun sh => .ok (sh, match (a.drop 1).getLast? with
          | none => s.2
          | some last => (scalarMul last (Dkg.powLoop (B32.ofByte i) (a.length - 1) (B32.ofByte 1))).toList) := by
        intro s
        unfold Residue.shareStep
        cases Dkg.shareStep a i s.1 with
        | ub u => rfl
        | ok sh =>
          simp only [C.ok_bind]
          cases (a.drop 1).getLast? <;> rfl
      rw [h s]
      cases Dkg.shareStep a i s.1 with
      | ub u => rfl
      | ok sh =>
        simp only [C.ok_bind]
        rw [ih]
    · rfl

/-- **C72.** `dkg_start` erases the array of coefficients on every path.
Missing: C72_coefficient_left_violated. -/
theorem C72_dkg_start_partial (l : Bool) (n t : UInt8) (rnd : ℕ → B32) (cs : List B32) (sh : List Share) (m0 : Stack)
    (hm : ∀ v, (m0 v).locked = false) :
    Prod.fst <$> Residue.start G l n t rnd cs sh m0 = Dkg.start G l n t rnd cs sh ∧
      ∀ r m, Residue.start G l n t rnd cs sh m0 = .ok (r, m) → ∀ v, v ≠ .term → Clean m0 m v := by
  unfold Residue.start Dkg.start
  by_cases ht : t.toNat = 0
  · rw [if_pos ht, if_pos ht]
    exact ⟨rfl, fun r m h => by cases h⟩
  rw [if_neg ht, if_neg ht]
  cases l with
  | false =>
    refine ⟨rfl, fun r m h v _ => ?_⟩
    cases h
    exact ⟨hm v, .inl rfl⟩
  | true =>
    simp only [bind_run, mlock_run, C.ok_bind, if_run, ne_eq, not_true_eq_false, if_false, pure_run, put_run, lift_run, get_run,
      munlock_run, Bool.not_true, Bool.false_eq_true]
    cases Dkg.commitLoop G rnd t.toNat 0 cs with
    | ub u => exact ⟨rfl, fun r m h => by cases h⟩
    | ok cs' =>
      simp only [C.ok_bind]
      rw [← shareLoop_fst ((List.range t.toNat).map rnd) n 257 1 (sh, (m0 .term).bytes)]
      cases hs : forLeU8 (Residue.shareStep ((List.range t.toNat).map rnd)) n 257 1 (sh, (m0 .term).bytes) with
      | ub u =>
        simp only [reduceCtorEq, if_false, hs]
        exact ⟨rfl, fun r m h => by cases h⟩
      | ok p =>
        simp only [reduceCtorEq, if_false, hs]
        refine ⟨rfl, fun r m h v hv => ?_⟩
        cases h
        by_cases hc : v = .coeffs
        · subst hc
          exact ⟨rfl, .inr fun b hb => by simpa using List.eq_of_mem_replicate hb⟩
        · simp [Clean, hc, hv, hm]

theorem shareLoop_snd (a : List B32) (last : B32) (ha : (a.drop 1).getLast? = some last) (n : UInt8) :
    ∀ (fuel : ℕ) (i : UInt8) (s s' : List Share × Bytes), i ≤ n → forLeU8 (Residue.shareStep a) n fuel i s = .ok s' →
      s'.2 = (scalarMul last (Dkg.powLoop (B32.ofByte n) (a.length - 1) (B32.ofByte 1))).toList := by
  intro fuel
  induction fuel with
  | zero => exact fun _ _ _ _ h => by cases h
  | succ f ih =>
    intro i s s' hi h
    unfold forLeU8 at h
    rw [if_pos hi] at h
    obtain ⟨s1, h1, h2⟩ := C.bind_eq_ok.1 h
    by_cases hn : i + 1 ≤ n
    · exact ih _ _ _ hn h2
    · have hin : i = n := by
        have hi' := UInt8.le_iff_toNat_le.1 hi
        have hn' : ¬ (i + 1).toNat ≤ n.toNat := fun h => hn (UInt8.le_iff_toNat_le.2 h)
        rw [UInt8.toNat_add] at hn'
        have := n.toNat_lt
        simp at hn'
        exact UInt8.toNat_inj.1 (by omega)
      subst hin
      have h3 : s' = s1 := by
        cases f with
        | zero => cases h2
        | succ f =>
          unfold forLeU8 at h2
          rw [if_neg hn] at h2
          cases h2
          rfl
      subst h3
      unfold Residue.shareStep at h1
      obtain ⟨sh, -, h4⟩ := C.bind_eq_ok.1 h1
      rw [ha] at h4
      cases h4
      rfl

/-- **C72**, violated: what `dkg_start` leaves on the stack determines the last coefficient of the polynomial. -/
theorem C72_coefficient_left_violated (n t : UInt8) (ht : 2 ≤ t.toNat) (hn : 1 ≤ n.toNat) (rnd : ℕ → B32) (cs : List B32)
    (sh : List Share) (m0 m : Stack) {r : Int × List B32 × List Share} (h : Residue.start G true n t rnd cs sh m0 = .ok (r, m)) :
    (toB32 (m .term).bytes).val / Spec.point n ^ (t.toNat - 1) = (rnd (t.toNat - 1)).val := by
  unfold Residue.start at h
  rw [if_neg (by omega)] at h
  simp only [bind_run, mlock_run, C.ok_bind, if_run, ne_eq, not_true_eq_false, if_false, pure_run, put_run, lift_run, get_run,
    munlock_run] at h
  cases hc : Dkg.commitLoop G rnd t.toNat 0 cs with
  | ub u => rw [hc] at h; cases h
  | ok cs' =>
    rw [hc] at h
    simp only [C.ok_bind, reduceCtorEq, if_false] at h
    have ha : (((List.range t.toNat).map rnd).drop 1).getLast? = some (rnd (t.toNat - 1)) := by
      obtain ⟨k, hk⟩ : ∃ k, t.toNat = k + 2 := ⟨t.toNat - 2, by omega⟩
      rw [hk, List.range_succ, List.map_append, List.drop_append_of_le_length (by simp)]
      simp
    cases hs : forLeU8 (Residue.shareStep ((List.range t.toNat).map rnd)) n 257 1 (sh, (m0 .term).bytes) with
    | ub u => rw [hs] at h; cases h
    | ok p =>
      have hp := shareLoop_snd _ _ ha n 257 1 _ _ (UInt8.le_iff_toNat_le.2 hn) hs
      rw [hs] at h
      cases h
      have hb : (if Var.term = Var.coeffs then (⟨[], false⟩ : Cell) else ⟨p.2, false⟩).bytes = p.2 := rfl
      show (toB32 p.2).val / _ = _
      rw [hp, toB32_toList, scalarMul_eq, B32.val_ofZ, List.length_map, List.length_range]
      have h1 : B32.ofByte 1 = B32.ofZ 1 := by rw [Toprf.ofByte_eq]; simp [Spec.point]
      have hz : Spec.point n ≠ 0 := Dkg.point_ne fun h0 => by rw [h0] at hn; simp at hn
      rw [h1, Toprf.ofByte_eq, Dkg.powLoop_eq, B32.val_ofZ, one_mul]
      exact mul_div_cancel_right₀ _ (pow_ne_zero _ hz)

theorem blind_short (x : Bytes) (xLen : UInt8) (hx : ¬ xLen.toNat ≤ x.length) (rnd r0 b0 s0 : B32) (m0 : Stack) :
    Residue.blind G true true x xLen rnd r0 b0 m0 = .ub .oob ∧ Oprf.blind G true s0 x xLen rnd r0 b0 = .ub .oob := by
  have hr : rd x 0 xLen.toNat = .ub .oob := if_neg (by omega)
  have hE : ∀ o, Oprf.expandMessageXmd x xLen Oprf.hashToGroupDst (UInt8.ofNat Oprf.hashToGroupDst.length) 64 o = .ub .oob := by
    intro o
    have hd : rd Oprf.hashToGroupDst 0 (UInt8.ofNat Oprf.hashToGroupDst.length).toNat = .ok Oprf.hashToGroupDst := by decide
    unfold Oprf.expandMessageXmd
    simp only [hd, hr]
    rfl
  constructor
  · simp only [Residue.blind, Residue.hashToGroup, bind_run, mlock_run, C.ok_bind, if_run, ne_eq, not_true_eq_false, if_false,
      get_run, put_run, Residue.expandMessageXmd, hE, C.ub_bind]
  · simp only [Oprf.blind, Oprf.hashToGroup, hE, Bool.not_true, Bool.false_eq_true, if_false, C.ub_bind]

/-- The stack after `oprf_Blind` -/
theorem blind_long (x : Bytes) (xLen : UInt8) (hx : xLen.toNat ≤ x.length) (rnd r0 b0 s0 : B32) (m0 : Stack) :
    ∃ res m p, Residue.blind G true true x xLen rnd r0 b0 m0 = .ok (res, m) ∧
      Oprf.blind G true s0 x xLen rnd r0 b0 = .ok res ∧
      (∀ v, v ≠ .msgPrime → v ≠ .b0 → v ≠ .uniform → v ≠ .h0 → m v = m0 v) ∧
      (m .uniform).locked = false ∧ (m .h0).locked = false ∧ (∀ b ∈ (m .uniform).bytes, b = 0) ∧ (∀ b ∈ (m .h0).bytes, b = 0) ∧
      (m .msgPrime).bytes = List.replicate 128 0 ++ x.take xLen.toNat ++ p := by
  have hr : rd x 0 xLen.toNat = .ok (x.take xLen.toNat) := if_pos (by omega)
  have hd : rd Oprf.hashToGroupDst 0 (UInt8.ofNat Oprf.hashToGroupDst.length).toNat = .ok Oprf.hashToGroupDst := by decide
  have hE := Oprf.expandMessageXmd_ok x Oprf.hashToGroupDst (List.replicate 64 0) xLen (UInt8.ofNat Oprf.hashToGroupDst.length)
    64 hx (by decide) (by decide) (by decide)
  generalize Spec.expandMessageXmd Oprf.sha (x.take xLen.toNat) (Oprf.hashToGroupDst.take
    (UInt8.ofNat Oprf.hashToGroupDst.length).toNat) (64 : UInt8).toNat ++ (List.replicate 64 0).drop (64 : UInt8).toNat = o at hE
  simp only [Residue.blind, Residue.hashToGroup, bind_run, mlock_run, C.ok_bind, if_run, ne_eq, not_true_eq_false, if_false,
    get_run, put_run, Residue.expandMessageXmd, hE, lift_run, hd, hr, pure_run, munlock_run, if_true, Oprf.blind,
    Oprf.hashToGroup, Bool.not_true, Bool.false_eq_true]
  by_cases h : (scalarmult G b0 rnd (fromHashBytes G (Oprf.toB64 o))).1 = 0
  · simp only [h, not_true_eq_false, if_false]
    refine ⟨_, _, beBytes 2 (64 : UInt8).toNat ++ [0] ++ (Oprf.hashToGroupDst ++ [UInt8.ofNat Oprf.hashToGroupDst.length]), rfl,
      rfl, ?_, rfl, rfl, ?_, ?_, ?_⟩
    · intro v h1 h2 h3 h4
      simp [h1, h2, h3, h4]
    · intro b hb
      simpa using List.eq_of_mem_replicate hb
    · intro b hb
      simpa using List.eq_of_mem_replicate hb
    · change List.replicate 128 0 ++ x.take xLen.toNat ++ beBytes 2 (64 : UInt8).toNat ++ [0] ++
        (Oprf.hashToGroupDst ++ [UInt8.ofNat Oprf.hashToGroupDst.length]) = _
      simp only [List.append_assoc]
  · simp only [h, not_false_eq_true, if_true]
    refine ⟨_, _, beBytes 2 (64 : UInt8).toNat ++ [0] ++ (Oprf.hashToGroupDst ++ [UInt8.ofNat Oprf.hashToGroupDst.length]), rfl,
      rfl, ?_, rfl, rfl, ?_, ?_, ?_⟩
    · intro v h1 h2 h3 h4
      simp [h1, h2, h3, h4]
    · intro b hb
      simpa using List.eq_of_mem_replicate hb
    · intro b hb
      simpa using List.eq_of_mem_replicate hb
    · change List.replicate 128 0 ++ x.take xLen.toNat ++ beBytes 2 (64 : UInt8).toNat ++ [0] ++
        (Oprf.hashToGroupDst ++ [UInt8.ofNat Oprf.hashToGroupDst.length]) = _
      simp only [List.append_assoc]

/-- **C72.** `oprf_Blind` erases the hashed input and the bytes it is made from, unless only the second lock fails.
Missing: C72_lock_left_violated and C72_input_left_violated. -/
theorem C72_blind_partial (l1 l2 : Bool) (hl : l1 = true → l2 = true) (x : Bytes) (xLen : UInt8) (rnd r0 b0 : B32) (m0 : Stack)
    (hm : ∀ v, (m0 v).locked = false) :
    Prod.fst <$> Residue.blind G l1 l2 x xLen rnd r0 b0 m0 = Oprf.blind G l1 (toB32 (m0 .h0).bytes) x xLen rnd r0 b0 ∧
      ∀ r m, Residue.blind G l1 l2 x xLen rnd r0 b0 m0 = .ok (r, m) → ∀ v, v ≠ .msgPrime → v ≠ .b0 → Clean m0 m v := by
  cases l1 with
  | false =>
    refine ⟨rfl, fun r m h v _ _ => ?_⟩
    cases h
    exact ⟨hm v, .inl rfl⟩
  | true =>
    rw [hl rfl]
    by_cases hx : xLen.toNat ≤ x.length
    · obtain ⟨res, m, p, e1, e2, e3, e4, e5, e6, e7, -⟩ := blind_long G x xLen hx rnd r0 b0 (toB32 (m0 .h0).bytes) m0
      rw [e1, e2]
      refine ⟨rfl, fun r m' h v h1 h2 => ?_⟩
      cases h
      by_cases h3 : v = .uniform
      · rw [h3]
        exact ⟨e4, .inr e6⟩
      by_cases h4 : v = .h0
      · rw [h4]
        exact ⟨e5, .inr e7⟩
      have := e3 v h1 h2 h3 h4
      exact ⟨by rw [this]; exact hm v, .inl this⟩
    · obtain ⟨e1, e2⟩ := blind_short G x xLen hx rnd r0 b0 (toB32 (m0 .h0).bytes) m0
      rw [e1, e2]
      exact ⟨rfl, fun r m h => by cases h⟩

/-- **C72**, violated: when the second lock of `oprf_Blind` fails, the first one is never released. -/
theorem C72_lock_left_violated (x : Bytes) (xLen : UInt8) (rnd r0 b0 : B32) (m0 : Stack) :
    ∃ m, Residue.blind G true false x xLen rnd r0 b0 m0 = .ok ((-1, r0, b0), m) ∧ (m .h0).locked = true :=
  ⟨_, rfl, rfl⟩

/-- **C72**, violated: the input is still on the stack after `oprf_Blind` has succeeded. -/
theorem C72_input_left_violated (l1 l2 : Bool) (x : Bytes) (xLen : UInt8) (rnd r0 b0 : B32) (m0 : Stack) {r b : B32} {m : Stack}
    (h : Residue.blind G l1 l2 x xLen rnd r0 b0 m0 = .ok ((0, r, b), m)) :
    ((m .msgPrime).bytes.drop 128).take xLen.toNat = x.take xLen.toNat := by
  cases l1 with
  | false => cases h
  | true =>
    cases l2 with
    | false => cases h
    | true =>
      by_cases hx : xLen.toNat ≤ x.length
      · obtain ⟨res, m', p, e1, -, -, -, -, -, -, e⟩ := blind_long G x xLen hx rnd r0 b0 zero32 m0
        rw [e1] at h
        cases h
        have hl : (x.take xLen.toNat).length = xLen.toNat := by rw [List.length_take]; omega
        rw [e, List.append_assoc, List.drop_left' List.length_replicate, List.take_left' hl]
      · rw [(blind_short G x xLen hx rnd r0 b0 zero32 m0).1] at h
        cases h

theorem lagrange_ne_zero (self : UInt8) (indexes : List UInt8) (h0 : 0 ∉ indexes) : Spec.lagrange indexes self ≠ 0 := by
  unfold Spec.lagrange
  refine List.prod_ne_zero fun hz => ?_
  obtain ⟨j, hj, he⟩ := List.mem_map.1 hz
  obtain ⟨h1, h2⟩ := List.mem_filter.1 hj
  rcases div_eq_zero_iff.1 he with h | h
  · exact Dkg.point_ne (fun h3 => h0 (h3 ▸ h1)) h
  · have := point_inj (sub_eq_zero.1 h)
    simp [this] at h2

/-- **C72**, violated: what `toprf_Evaluate` leaves on the stack determines the share of the server. -/
theorem C72_share_left_violated (k : Share) (blinded : B32) (self : UInt8) (indexes : List UInt8) (Z0 : Share) (m0 : Stack)
    (h0 : 0 ∉ indexes) :
    ∃ m, Residue.evaluate G k blinded self indexes Z0 m0 = .ok (Toprf.evaluate G k blinded self indexes Z0, m) ∧
      (toB32 (m .kl).bytes).val / Spec.lagrange indexes self = k.value.val := by
  have hv : (toB32 (scalarMul k.value (Toprf.coeff self indexes)).toList).val / Spec.lagrange indexes self = k.value.val := by
    rw [toB32_toList, scalarMul_eq, B32.val_ofZ, Toprf.coeff_eq, B32.val_ofZ]
    exact mul_div_cancel_right₀ _ (lagrange_ne_zero self indexes h0)
  unfold Residue.evaluate Toprf.evaluate
  simp only [bind_run, put_run, C.ok_bind, if_run, pure_run]
  split
  · exact ⟨_, rfl, hv⟩
  · exact ⟨_, rfl, hv⟩

theorem flat_inj : ∀ a b : List B32, a.length = b.length → a.flatMap (·.toList) = b.flatMap (·.toList) → a = b
  | [], [], _, _ => rfl
  | x :: a, y :: b, hl, h => by
    simp only [List.flatMap_cons] at h
    obtain ⟨h1, h2⟩ := List.append_inj h (by simp)
    rw [Vector.toList_inj.1 h1, flat_inj a b (by simpa using hl) h2]

/-- **C72**, violated: what `toprf_create_shares` leaves on the stack and any one of the shares determine the secret. -/
theorem C72_polynomial_left_violated (t : UInt8) (ht : 2 ≤ t.toNat) (n n' : UInt8) (hn : n.toNat ≤ 254) (hn' : n'.toNat ≤ 254)
    (secret secret' : B32) (hs : secret.toNat + L ≤ 2 ^ 256) (hs' : secret'.toNat + L ≤ 2 ^ 256) (rnd rnd' : ℕ → B32)
    (out out' : List Share) (ho : out.length = n.toNat) (ho' : out'.length = n'.toNat) (m0 m0' : Stack) :
    ∃ shares shares' m m', Residue.createShares secret n t rnd out m0 = .ok (shares, m) ∧
      Residue.createShares secret' n' t rnd' out' m0' = .ok (shares', m') ∧ shares.length = n.toNat ∧
      ((m .poly).bytes = (m' .poly).bytes → (∃ s ∈ shares, s ∈ shares') → secret.val = secret'.val) := by
  obtain ⟨f, shares, h1, h2, h3, h4, h5, h6⟩ := C09_create_shares secret hs n t rnd out ht hn (by omega)
  obtain ⟨f', shares', h1', h2', h3', h4', h5', h6'⟩ := C09_create_shares secret' hs' n' t rnd' out' ht hn' (by omega)
  rw [List.drop_of_length_le (by omega), List.append_nil] at h1 h1'
  have hrun : ∀ (sec : B32) (n : UInt8) (rnd : ℕ → B32) (out sh : List Share) (m0 : Stack),
      Toprf.createShares sec n t rnd out = .ok sh → ∃ m, Residue.createShares sec n t rnd out m0 = .ok (sh, m) ∧
        (m .poly).bytes = ((List.range (t.toNat - 1)).map rnd).flatMap (·.toList) := by
    intro sec n rnd out sh m0 h
    unfold Toprf.createShares at h
    rw [if_neg (by omega)] at h
    unfold Residue.createShares
    rw [if_neg (by omega)]
    simp only [bind_run, put_run, C.ok_bind, lift_run]
    dsimp only at h
    rw [h]
    exact ⟨_, rfl, rfl⟩
  obtain ⟨m, r1, r2⟩ := hrun secret n rnd out shares m0 h1
  obtain ⟨m', r1', r2'⟩ := hrun secret' n' rnd' out' shares' m0' h1'
  refine ⟨shares, shares', m, m', r1, r1', by simpa using congrArg List.length h5, ?_⟩
  rintro he ⟨s, hs1, hs2⟩
  rw [r2, r2'] at he
  have hl := flat_inj _ _ (by simp) he
  have hc : ∀ j, j + 1 < t.toNat → (rnd j).val = (rnd' j).val := by
    intro j hj
    rw [(List.map_inj_left.1 hl) j (List.mem_range.2 (by omega))]
  have hf : f = f' + Polynomial.C (secret.val - secret'.val) := by
    ext k
    cases k with
    | zero =>
      rw [coeff_add, coeff_zero_eq_eval_zero, coeff_zero_eq_eval_zero, coeff_C_zero, h3, h3']
      ring
    | succ k =>
      rw [coeff_add, coeff_C_succ, add_zero]
      by_cases hk : k + 1 < t.toNat
      · rw [h4 k hk, h4' k hk, hc k hk]
      · rw [coeff_eq_zero_of_degree_lt (lt_of_lt_of_le h2 (by exact_mod_cast (by omega))),
          coeff_eq_zero_of_degree_lt (lt_of_lt_of_le h2' (by exact_mod_cast (by omega)))]
  have h7 := (h6 s hs1).2
  have h8 := (h6' s hs2).2
  rw [h7, hf, eval_add, eval_C] at h8
  exact sub_eq_zero.1 (by linear_combination h8)

end

section Toy
attribute [local instance] Ristretto.toy Toy.hashes

/-- A stack on which nothing is locked -/
def exStack : Stack := fun _ => ⟨[1, 2, 3], false⟩

example := C72_unblind (ZMod L) true (B32.ofZ 5) (enc (1 : ZMod L)) zero32 exStack (fun _ => rfl)
example := C72_blind_partial (ZMod L) true true (fun _ => rfl) [65, 66] 2 (B32.ofZ ((5 : ℕ) : ZMod L)) zero32 zero32 exStack
  (fun _ => rfl)

/-- `oprf_Blind` succeeds and leaves the input `AB`. -/
example : ∃ b m, Residue.blind (ZMod L) true true [65, 66] 2 (B32.ofZ ((5 : ℕ) : ZMod L)) zero32 zero32 exStack =
    .ok ((0, B32.ofZ ((5 : ℕ) : ZMod L), b), m) ∧ ((m .msgPrime).bytes.drop 128).take 2 = [65, 66] := by
  have h := blind_eq (ZMod L) [65, 66] (by decide) (B32.ofZ ((5 : ℕ) : ZMod L))
    (Toy.randomScalar 5 (by norm_num) (by norm_num)) (Toy.hashToGroup_ne _) zero32 zero32 zero32
  obtain ⟨res, m, p, e1, e2, -⟩ := blind_long (ZMod L) [65, 66] 2 (by decide) (B32.ofZ ((5 : ℕ) : ZMod L)) zero32 zero32 zero32
    exStack
  rw [show UInt8.ofNat ([65, 66] : Bytes).length = 2 from rfl, e2] at h
  cases h
  exact ⟨_, m, e1, C72_input_left_violated (ZMod L) true true [65, 66] 2 _ _ _ exStack e1⟩

/-- `dkg_start` for three peers with threshold 2 -/
example : ∃ r m, Residue.start (ZMod L) true 3 2 (fun _ => B32.ofNat 7) (List.replicate 2 zero32) (List.replicate 3 ⟨0, zero32⟩)
    exStack = .ok (r, m) ∧ (toB32 (m .term).bytes).val / Spec.point 3 ^ 1 = (B32.ofNat 7).val := by
  have h : ∃ r m, Residue.start (ZMod L) true 3 2 (fun _ => B32.ofNat 7) (List.replicate 2 zero32)
    (List.replicate 3 ⟨0, zero32⟩) exStack = .ok (r, m) := ⟨_, _, rfl⟩
  obtain ⟨r, m, h⟩ := h
  exact ⟨r, m, h, C72_coefficient_left_violated (ZMod L) 3 2 (by decide) (by decide) _ _ _ _ _ h⟩

example := C72_polynomial_left_violated 2 (by decide) 3 3 (by decide) (by decide) (B32.ofNat 7) (B32.ofNat 9)
  (by decide +kernel) (by decide +kernel) (fun _ => B32.ofNat 1) (fun _ => B32.ofNat 1) (List.replicate 3 ⟨0, zero32⟩)
  (List.replicate 3 ⟨0, zero32⟩) rfl rfl exStack exStack

end Toy

end Verif.Props
