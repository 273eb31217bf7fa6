import Verif.Model.Mpmult
import Mathlib.LinearAlgebra.Vandermonde
import Mathlib.LinearAlgebra.Matrix.NonsingularInverse

/-!
# Lemmas about the matrix inversion of `mpmult.c`
-/

set_option linter.unusedSectionVars false

namespace Verif.Mpmult

variable {n : ℕ}

/-! ### Solving with an LU decomposition, over any field -/

section Field

variable {K : Type} [Field K]

/-- Invariant of the elimination after `j` columns. `lu` holds the rows in the order of the permutation. -/
def LUInv (A lu : Fin n → Fin n → K) (j : ℕ) : Prop :=
  (∀ i k, A i k = (∑ m, if m < i ∧ m.1 < j ∧ m ≤ k then lu i m * lu m k else 0) +
    if min i.1 j ≤ k.1 then lu i k else 0) ∧
  ∀ m : Fin n, m.1 < j → lu m m ≠ 0

/-- Backward substitution: there is a non-zero vector annihilated by the first `j` rows and supported on the first
`j + 1` columns. -/
theorem exists_back (lu : Fin n → Fin n → K) (j : Fin n) (hd : ∀ m : Fin n, m.1 < j.1 → lu m m ≠ 0) :
    ∀ d : ℕ, d ≤ j.1 → ∃ w : Fin n → K, w j = 1 ∧ (∀ k, j < k → w k = 0) ∧
      ∀ m : Fin n, m.1 < j.1 → j.1 - d ≤ m.1 → (∑ k, if m ≤ k then lu m k * w k else 0) = 0 := by
  intro d
  induction d with
  | zero =>
    intro _
    refine ⟨fun k => if k = j then 1 else 0, by simp, ?_, ?_⟩
    · intro k hk; simp [ne_of_gt hk]
    · intro m h1 h2; omega
  | succ d ih =>
    intro hdj
    obtain ⟨w, h1, h2, h3⟩ := ih (by omega)
    let s : Fin n := ⟨j.1 - (d + 1), by omega⟩
    have hsj : s ≠ j := by intro h; have := congrArg Fin.val h; simp [s] at this; omega
    have hs := hd s (by simp [s]; omega)
    refine ⟨Function.update w s (-(∑ k, if s < k then lu s k * w k else 0) / lu s s), ?_, ?_, ?_⟩
    · rw [Function.update_of_ne hsj.symm, h1]
    · intro k hk
      have : k ≠ s := by
        rintro rfl
        have : j.1 < s.1 := hk
        simp [s] at this; omega
      rw [Function.update_of_ne this, h2 k hk]
    · intro m hm1 hm2
      by_cases hms : m = s
      · rw [hms]
        have : (fun k => if s ≤ k then lu s k * Function.update w s (-(∑ k, if s < k then lu s k * w k else 0) / lu s s) k
            else 0) = fun k => (if s < k then lu s k * w k else 0) +
              if k = s then -(∑ k, if s < k then lu s k * w k else 0) else 0 := by
          funext k
          rcases lt_trichotomy s k with h | h | h
          · rw [if_pos h.le, if_pos h, if_neg h.ne', Function.update_of_ne h.ne', add_zero]
          · rw [← h]
            simp only [le_refl, if_true, lt_irrefl, if_false, Function.update_self, zero_add]
            rw [mul_div_cancel₀ _ hs]
          · rw [if_neg (not_le.2 h), if_neg (not_lt.2 h.le), if_neg h.ne, add_zero]
        rw [this, Finset.sum_add_distrib, Finset.sum_ite_eq']
        simp
      · have hms' : s < m := by
          rcases lt_trichotomy m s with h | h | h
          · have : m.1 < s.1 := h
            simp [s] at this; omega
          · exact absurd h hms
          · exact h
        have h4 : s.1 < m.1 := hms'
        have h5 : s.1 = j.1 - (d + 1) := rfl
        refine Eq.trans ?_ (h3 m hm1 (by omega))
        apply Finset.sum_congr rfl
        intro k _
        split
        · rename_i hk
          rw [Function.update_of_ne]
          exact (lt_of_lt_of_le hms' hk).ne'
        · rfl

/-- If the matrix is injective, the elimination finds a pivot. -/
theorem exists_pivot (A lu : Fin n → Fin n → K) (j : Fin n) (h : LUInv A lu j.1)
    (hA : ∀ w : Fin n → K, (∀ i, ∑ k, A i k * w k = 0) → w = 0) : ∃ i, j ≤ i ∧ lu i j ≠ 0 := by
  by_contra hcon
  push Not at hcon
  obtain ⟨w, h1, h2, h3⟩ := exists_back lu j h.2 j.1 le_rfl
  have : w = 0 := by
    apply hA
    intro i
    have hrow : ∀ m : Fin n, m.1 < j.1 → (∑ k, if m ≤ k then lu m k * w k else 0) = 0 := fun m hm => h3 m hm (by omega)
    have e : (fun k => A i k * w k) = fun k => (∑ m, (if m < i ∧ m.1 < j.1 then lu i m else 0) *
        (if m ≤ k then lu m k * w k else 0)) + (if min i.1 j.1 ≤ k.1 then lu i k * w k else 0) := by
      funext k
      rw [h.1 i k, add_mul, Finset.sum_mul, ite_mul, zero_mul]
      congr 1
      apply Finset.sum_congr rfl
      intro m _
      by_cases ha : m < i ∧ m.1 < j.1
      · by_cases hb : m ≤ k
        · rw [if_pos ⟨ha.1, ha.2, hb⟩, if_pos ha, if_pos hb, mul_assoc]
        · rw [if_neg (fun hc => hb hc.2.2), if_neg hb, mul_zero, zero_mul]
      · rw [if_neg (fun hc => ha ⟨hc.1, hc.2.1⟩), if_neg ha, zero_mul, zero_mul]
    rw [e, Finset.sum_add_distrib, Finset.sum_comm]
    have e1 : (∑ m, ∑ k, (if m < i ∧ m.1 < j.1 then lu i m else 0) * (if m ≤ k then lu m k * w k else 0)) = 0 := by
      apply Finset.sum_eq_zero
      intro m _
      rw [← Finset.mul_sum]
      by_cases ha : m.1 < j.1
      · rw [hrow m ha, mul_zero]
      · rw [if_neg (fun hc => ha hc.2), zero_mul]
    rw [e1, zero_add]
    by_cases hij : i.1 < j.1
    · refine Eq.trans ?_ (hrow i hij)
      apply Finset.sum_congr rfl
      intro k _
      have : (min i.1 j.1 ≤ k.1) ↔ i ≤ k := by rw [Nat.min_eq_left (by omega)]; rfl
      simp only [this]
    · apply Finset.sum_eq_zero
      intro k _
      split
      · rename_i hk
        rw [Nat.min_eq_right (by omega)] at hk
        rcases lt_or_eq_of_le hk with hk | hk
        · rw [h2 k hk, mul_zero]
        · have : k = j := Fin.ext hk.symm
          rw [this, hcon i (by show j.1 ≤ i.1; omega), zero_mul]
      · rfl
  rw [this] at h1
  simp at h1

/-- One elimination step on the permuted rows. -/
theorem LUInv.step {A lu lu' : Fin n → Fin n → K} {j : Fin n} (h : LUInv A lu j.1) (hp : lu j j ≠ 0)
    (h1 : ∀ i, i ≤ j → lu' i = lu i) (h2 : ∀ i, j < i → ∀ l, lu' i l =
      if l = j then lu i j * (lu j j)⁻¹ else if j < l then lu i l - lu i j * (lu j j)⁻¹ * lu j l else lu i l) :
    LUInv A lu' (j.1 + 1) := by
  constructor
  · intro i k
    rw [h.1 i k]
    rcases le_or_gt i j with hij | hij
    · have hij' : i.1 ≤ j.1 := hij
      congr 1
      · apply Finset.sum_congr rfl
        intro m _
        by_cases hm : m < i
        · have hm' : m.1 < i.1 := hm
          have e1 : m.1 < j.1 := by omega
          have e2 : m.1 < j.1 + 1 := by omega
          have e3 : m ≤ j := by show m.1 ≤ j.1; omega
          simp only [hm, e1, e2, true_and, h1 i hij, h1 m e3]
        · simp only [hm, false_and, if_false]
      · rw [Nat.min_eq_left (by omega), Nat.min_eq_left (by omega), h1 i hij]
    · have hij' : j.1 < i.1 := hij
      have e : (fun m : Fin n => if m < i ∧ m.1 < j.1 + 1 ∧ m ≤ k then lu' i m * lu' m k else 0) = fun m =>
          (if m < i ∧ m.1 < j.1 ∧ m ≤ k then lu i m * lu m k else 0) +
          if m = j then (if j ≤ k then lu i j * (lu j j)⁻¹ * lu j k else 0) else 0 := by
        funext m
        rcases lt_trichotomy m j with hm | hm | hm
        · have hm' : m.1 < j.1 := hm
          have e1 : m < i := lt_trans hm hij
          have e2 : m.1 < j.1 + 1 := by omega
          rw [if_neg hm.ne, add_zero, h1 m hm.le, h2 i hij m, if_neg hm.ne, if_neg (not_lt.2 hm.le)]
          simp only [e1, hm', e2]
        · subst hm
          have e0 : ¬ (m < i ∧ m.1 < m.1 ∧ m ≤ k) := fun hc => lt_irrefl _ hc.2.1
          rw [if_neg e0, if_pos rfl, zero_add, h1 m le_rfl, h2 i hij m, if_pos rfl]
          simp [hij]
        · have hm' : j.1 < m.1 := hm
          rw [if_neg hm.ne', if_neg (fun hc => by omega), if_neg (fun hc => by omega), add_zero]
      rw [e, Finset.sum_add_distrib, Finset.sum_ite_eq' Finset.univ j]
      simp only [Finset.mem_univ, if_true]
      rw [add_assoc]
      congr 1
      rw [Nat.min_eq_right (by omega), Nat.min_eq_right (by omega)]
      rcases lt_trichotomy k j with hk | hk | hk
      · have hk' : k.1 < j.1 := hk
        rw [if_neg (by omega), if_neg (not_le.2 hk), if_neg (by omega), add_zero]
      · subst hk
        rw [if_pos le_rfl, if_pos le_rfl, if_neg (by omega), add_zero]
        field_simp
      · have hk' : j.1 < k.1 := hk
        rw [if_pos (by omega), if_pos hk.le, if_pos (by omega), h2 i hij k, if_neg hk.ne', if_pos hk]
        ring
  · intro m hm
    have : m ≤ j := by show m.1 ≤ j.1; omega
    rw [h1 m this]
    rcases lt_or_eq_of_le this with h' | h'
    · exact h.2 m h'
    · rw [h']; exact hp

/-- Permuting the rows from `j` on keeps the invariant. -/
theorem LUInv.perm {A lu A' lu' : Fin n → Fin n → K} {j : Fin n} (h : LUInv A lu j.1) (τ : Fin n → Fin n)
    (hτ : ∀ i, i < j → τ i = i) (hτ' : ∀ i, j ≤ i → j ≤ τ i) (hA : ∀ i, A' i = A (τ i)) (hlu : ∀ i, lu' i = lu (τ i)) :
    LUInv A' lu' j.1 := by
  constructor
  · intro i k
    rw [hA, hlu, h.1 (τ i) k]
    rcases lt_or_ge i j with hij | hij
    · rw [hτ i hij]
      congr 1
      apply Finset.sum_congr rfl
      intro m _
      by_cases hm : m.1 < j.1
      · rw [hlu, hτ m hm]
      · rw [if_neg (fun hc => hm hc.2.1), if_neg (fun hc => hm hc.2.1)]
    · have h' := hτ' i hij
      have a1 : j.1 ≤ i.1 := hij
      have a2 : j.1 ≤ (τ i).1 := h'
      rw [Nat.min_eq_right a1, Nat.min_eq_right a2]
      congr 1
      apply Finset.sum_congr rfl
      intro m _
      by_cases hm : m.1 < j.1
      · have e1 : m < i := lt_of_lt_of_le hm hij
        have e2 : m < τ i := lt_of_lt_of_le hm h'
        rw [hlu m, hτ m hm]
        simp only [e1, e2]
      · rw [if_neg (fun hc => hm hc.2.1), if_neg (fun hc => hm hc.2.1)]
  · intro m hm
    rw [hlu, hτ m hm]
    exact h.2 m hm

/-- Forward and backward substitution solve the system. -/
theorem LUInv.solve {A lu : Fin n → Fin n → K} (h : LUInv A lu (n - 1)) (y x b : Fin n → K)
    (hy : ∀ i, y i = b i - ∑ m, if m < i then lu i m * y m else 0)
    (hx : ∀ j, (∑ k, if j ≤ k then lu j k * x k else 0) = y j) (i : Fin n) : ∑ k, A i k * x k = b i := by
  have e : (fun k => A i k * x k) = fun k => (∑ m, (if m < i then lu i m else 0) *
      (if m ≤ k then lu m k * x k else 0)) + (if i ≤ k then lu i k * x k else 0) := by
    funext k
    rw [h.1 i k, add_mul, Finset.sum_mul, ite_mul, zero_mul]
    congr 1
    · apply Finset.sum_congr rfl
      intro m _
      by_cases ha : m < i
      · have : m.1 < n - 1 := by have : m.1 < i.1 := ha; omega
        by_cases hb : m ≤ k
        · rw [if_pos ⟨ha, this, hb⟩, if_pos ha, if_pos hb, mul_assoc]
        · rw [if_neg (fun hc => hb hc.2.2), if_neg hb, mul_zero, zero_mul]
      · rw [if_neg (fun hc => ha hc.1), if_neg ha, zero_mul, zero_mul]
    · rw [Nat.min_eq_left (by omega)]; rfl
  rw [e, Finset.sum_add_distrib, Finset.sum_comm, hx i, hy i]
  have : (∑ m, ∑ k, (if m < i then lu i m else 0) * (if m ≤ k then lu m k * x k else 0)) =
      ∑ m, if m < i then lu i m * y m else 0 := by
    apply Finset.sum_congr rfl
    intro m _
    rw [← Finset.mul_sum, hx m, ite_mul, zero_mul]
  rw [this]
  ring

end Field

/-! ### The comparison -/

theorem cmpLoop_self : ∀ l : List UInt8, cmpLoop (l.map fun a => (a, a)) = 0
  | [] => rfl
  | a :: l => by simp [cmpLoop, cmpLoop_self l]

theorem cmpLoop_zero : ∀ l : List (UInt8 × UInt8), (∀ p ∈ l, p.2 = 0) → (∃ p ∈ l, p.1 ≠ 0) → cmpLoop l > 0
  | [], _, h => by simp at h
  | (a, b) :: l, h, h' => by
    have hb : b = 0 := h (a, b) (by simp)
    subst hb
    unfold cmpLoop
    by_cases ha : a = 0
    · subst ha
      have h00 : ¬ (0 : UInt8) < 0 := by decide
      rw [if_neg h00, if_neg h00]
      apply cmpLoop_zero l (fun p hp => h p (by simp [hp]))
      obtain ⟨p, hp, hp0⟩ := h'
      rcases List.mem_cons.1 hp with rfl | hp
      · exact absurd rfl hp0
      · exact ⟨p, hp, hp0⟩
    · have : a > 0 := UInt8.pos_iff_ne_zero.2 ha
      rw [if_pos this]; decide

theorem cmpLoop_zero_left : ∀ l : List (UInt8 × UInt8), (∀ p ∈ l, p.1 = 0) → ¬ cmpLoop l > 0
  | [], _ => by simp [cmpLoop]
  | (a, b) :: l, h => by
    have ha : a = 0 := h (a, b) (by simp)
    subst ha
    unfold cmpLoop
    have h0 : ¬ (0 : UInt8) > b := by
      intro h
      have : b.toNat < (0 : UInt8).toNat := h
      simp at this
    rw [if_neg h0]
    split
    · simp
    · exact cmpLoop_zero_left l (fun p hp => h p (by simp [hp]))

theorem zero32_toList : zero32.toList = List.replicate 32 0 := by
  have : zero32 = B32.ofByte 0 := rfl
  rw [this, B32.ofByte_toList]; rfl

/-- A non-zero scalar is greater than zero. -/
theorem cmp_zero {a : B32} (h : a ≠ zero32) : cmp a zero32 > 0 := by
  unfold cmp
  apply cmpLoop_zero
  · intro p hp
    rw [List.mem_reverse] at hp
    have := List.of_mem_zip hp
    rw [zero32_toList] at this
    exact (List.mem_replicate.1 this.2).2
  · by_contra hcon
    push Not at hcon
    apply h
    apply Vector.toList_inj.1
    rw [zero32_toList]
    have hl : a.toList.length = 32 := by simp
    refine List.eq_replicate_iff.2 ⟨hl, ?_⟩
    intro x hx
    obtain ⟨i, hi, rfl⟩ := List.getElem_of_mem hx
    have hz : i < zero32.toList.length := by rw [zero32_toList]; simpa using hi
    apply hcon (a.toList[i], zero32.toList[i])
    rw [List.mem_reverse]
    rw [List.mem_iff_getElem]
    exact ⟨i, by simp at hi ⊢; exact hi, by simp⟩

/-- Zero is not greater than anything. -/
theorem not_cmp_zero_left (b : B32) : ¬ cmp zero32 b > 0 := by
  unfold cmp
  apply cmpLoop_zero_left
  intro p hp
  rw [List.mem_reverse] at hp
  have := List.of_mem_zip hp
  rw [zero32_toList] at this
  exact (List.mem_replicate.1 this.1).2

theorem cmp_ne_zero {a b : B32} (h : cmp a b > 0) : a ≠ zero32 := by
  rintro rfl
  exact not_cmp_zero_left b h

theorem rowMax_ne_zero (row : Fin n → B32) (h : ∃ j, row j ≠ zero32) : rowMax row ≠ zero32 := by
  unfold rowMax
  have key : ∀ (l : List (Fin n)) (c1 : B32), (c1 ≠ zero32 ∨ ∃ j ∈ l, row j ≠ zero32) →
      l.foldl (fun c1 j => if cmp (row j) c1 > 0 then row j else c1) c1 ≠ zero32 := by
    intro l
    induction l with
    | nil => intro c1 h; simpa using h
    | cons j l ih =>
      intro c1 h
      rw [List.foldl_cons]
      apply ih
      by_cases hc : c1 = zero32
      · subst hc
        rcases h with h | ⟨k, hk, hk0⟩
        · exact absurd rfl h
        · rcases List.mem_cons.1 hk with rfl | hk
          · left; rw [if_pos (cmp_zero hk0)]; exact hk0
          · right; exact ⟨k, hk, hk0⟩
      · left
        split
        · rename_i h'; exact cmp_ne_zero h'
        · exact hc
  obtain ⟨j, hj⟩ := h
  exact key _ _ (.inr ⟨j, List.mem_finRange j, hj⟩)

/-- The pivot search finds a row with a non-zero entry if there is one. -/
theorem pivot_spec (a : Mat n) (c : Fin n → B32) (index : Fin n → Fin n) (j k : Fin n)
    (h : ∃ i, j ≤ i ∧ r255div (a (index i) j) (c (index i)) ≠ zero32) :
    let k' := (pivot a c index j k).2
    j ≤ k' ∧ r255div (a (index k') j) (c (index k')) ≠ zero32 := by
  intro k'
  have key : ∀ (l : List (Fin n)) (s : B32 × Fin n), (∀ i ∈ l, j ≤ i) →
      (s.1 ≠ zero32 → j ≤ s.2 ∧ r255div (a (index s.2) j) (c (index s.2)) ≠ zero32) →
      (s.1 ≠ zero32 ∨ ∃ i ∈ l, r255div (a (index i) j) (c (index i)) ≠ zero32) →
      let r := (l.foldl (fun s i =>
        let pi0 := r255div (a (index i) j) (c (index i))
        if cmp pi0 s.1 > 0 then (pi0, i) else s) s)
      j ≤ r.2 ∧ r255div (a (index r.2) j) (c (index r.2)) ≠ zero32 := by
    intro l
    induction l with
    | nil =>
      intro s _ h1 h2
      rcases h2 with h2 | ⟨i, hi, _⟩
      · exact h1 h2
      · simp at hi
    | cons i l ih =>
      intro s h0 h1 h2
      rw [List.foldl_cons]
      apply ih
      · intro i' hi'; exact h0 i' (by simp [hi'])
      · dsimp only
        split
        · intro hne
          exact ⟨h0 i (by simp), hne⟩
        · exact h1
      · dsimp only
        split
        · rename_i hc
          left; exact cmp_ne_zero hc
        · rename_i hc
          by_cases hs : s.1 = zero32
          · right
            rcases h2 with h2 | ⟨i', hi', hne⟩
            · exact absurd hs h2
            · rcases List.mem_cons.1 hi' with rfl | hi'
              · rw [hs] at hc; exact absurd (cmp_zero hne) hc
              · exact ⟨i', hi', hne⟩
          · left; exact hs
  obtain ⟨i, hi, hne⟩ := h
  exact key _ _ (fun i hi => by simpa using (List.mem_filter.1 hi).2) (fun h => absurd rfl h)
    (.inr ⟨i, List.mem_filter.2 ⟨List.mem_finRange i, by simpa using hi⟩, hne⟩)

/-! ### Closed forms of the loops -/

theorem setM_apply (a : Mat n) (r c : Fin n) (v : B32) (r' c' : Fin n) :
    setM a r c v r' c' = if r' = r ∧ c' = c then v else a r' c' := by
  unfold setM
  by_cases hr : r' = r
  · subst hr
    rw [Function.update_self]
    by_cases hc : c' = c
    · subst hc; simp
    · simp [hc]
  · simp [hr]

/-- The row after elimination. -/
def newRow (a : Mat n) (j q r l : Fin n) : B32 :=
  if l = j then r255div (a r j) (a q j)
  else if j < l then scalarSub (a r l) (scalarMul (r255div (a r j) (a q j)) (a q l)) else a r l

theorem elimRow_eq (j q r : Fin n) (a : Mat n) (hq : q ≠ r) (r' l' : Fin n) :
    elimRow j q a r r' l' = if r' = r then newRow a j q r l' else a r' l' := by
  unfold elimRow
  have key : ∀ (ls : List (Fin n)), ls.Nodup → ∀ (b : Mat n) (pj : B32),
      (ls.foldl (fun a l => setM a r l (scalarSub (a r l) (scalarMul pj (a q l)))) b) r' l' =
        if r' = r ∧ l' ∈ ls then scalarSub (b r l') (scalarMul pj (b q l')) else b r' l' := by
    intro ls
    induction ls with
    | nil => intro _ b pj; simp
    | cons l ls ih =>
      intro hnd b pj
      rw [List.nodup_cons] at hnd
      rw [List.foldl_cons, ih hnd.2]
      by_cases hr : r' = r
      · subst hr
        by_cases hl : l' ∈ ls
        · have hne : l' ≠ l := by rintro rfl; exact hnd.1 hl
          simp [hl, setM_apply, hne, hq]
        · by_cases hll : l' = l
          · subst hll; simp [hnd.1, setM_apply]
          · simp [hl, setM_apply, hll]
      · simp [hr, setM_apply]
  rw [key _ ((List.nodup_finRange n).filter _)]
  unfold newRow
  by_cases hr : r' = r
  · subst hr
    by_cases hlj : l' = j
    · subst hlj; simp [setM_apply]
    · simp [setM_apply, hlj, hq, List.mem_filter, List.mem_finRange]
  · simp [hr, setM_apply]

theorem elimRows_eq (j q : Fin n) : ∀ (rs : List (Fin n)), rs.Nodup → q ∉ rs → ∀ (a : Mat n) (r' l' : Fin n),
    (rs.foldl (fun a r => elimRow j q a r) a) r' l' = if r' ∈ rs then newRow a j q r' l' else a r' l' := by
  intro rs
  induction rs with
  | nil => intro _ _ a r' l'; simp
  | cons r rs ih =>
    intro hnd hq a r' l'
    rw [List.nodup_cons] at hnd
    rw [List.mem_cons, not_or] at hq
    rw [List.foldl_cons, ih hnd.2 hq.2]
    by_cases hr : r' ∈ rs
    · have hne : r' ≠ r := by rintro rfl; exact hnd.1 hr
      simp only [hr, if_true, List.mem_cons, or_true]
      unfold newRow
      simp only [elimRow_eq j q r a hq.1, hne, hq.1, if_false]
    · simp only [hr, if_false, List.mem_cons, or_false]
      rw [elimRow_eq j q r a hq.1]
      by_cases h : r' = r
      · subst h; simp
      · simp [h]

/-! ### The elimination -/

theorem r255div_eq (a b : B32) : r255div a b = B32.ofZ (a.val * b.val⁻¹) := by
  rw [r255div, scalarMul_eq, scalarInvert_eq, B32.val_ofZ]

theorem ne_zero32_iff {a : B32} (h : a.Canonical) : a ≠ zero32 ↔ a.val ≠ 0 := by
  constructor
  · intro hne h0
    exact hne (B32.canonical_ext h zero32_canonical (by simpa using h0))
  · rintro h0 rfl; simp at h0

theorem ofZ_ne_zero {z : ZMod L} : B32.ofZ z ≠ zero32 ↔ z ≠ 0 := by
  rw [ne_zero32_iff (B32.canonical_ofZ z), B32.val_ofZ]

/-- The entries of the state as residues, rows in the order of `index`. -/
def luOf (a : Mat n) (index : Fin n → Fin n) : Fin n → Fin n → ZMod L := fun i k => (a (index i) k).val

structure GInv (A : Mat n) (j : ℕ) (s : GState n) : Prop where
  inj : Function.Injective s.index
  canon : ∀ r l, (s.a r l).Canonical
  lu : LUInv (fun i k => (A (s.index i) k).val) (luOf s.a s.index) j

theorem swapIndex_eq (index : Fin n → Fin n) (j k : Fin n) : swapIndex index j k = index ∘ Equiv.swap j k := by
  funext i
  unfold swapIndex
  simp only [Function.comp]
  by_cases hk : i = k
  · subst hk; simp
  · rw [Function.update_of_ne hk]
    by_cases hj : i = j
    · subst hj; simp
    · rw [Function.update_of_ne hj, Equiv.swap_apply_of_ne_of_ne hj hk]

theorem gaussStep_inv (A : Mat n)
    (hA : ∀ w : Fin n → ZMod L, (∀ i, ∑ k, (A i k).val * w k = 0) → w = 0) (c : Fin n → B32)
    (hc : ∀ i, (c i).val ≠ 0) (j : Fin n) (s : GState n) (h : GInv A j.1 s) :
    GInv A (j.1 + 1) (gaussStep c s j) := by
  have hinj' : Function.Injective s.index := h.inj
  have hbij : Function.Bijective s.index := Finite.injective_iff_bijective.1 h.inj
  have hA' : ∀ w : Fin n → ZMod L, (∀ i, ∑ k, (A (s.index i) k).val * w k = 0) → w = 0 := by
    intro w hw
    apply hA
    intro i
    obtain ⟨i', rfl⟩ := hbij.2 i
    exact hw i'
  obtain ⟨i0, hi0, hne0⟩ := exists_pivot _ _ j h.lu hA'
  have hp := pivot_spec s.a c s.index j s.k ⟨i0, hi0, by
    rw [r255div_eq, ofZ_ne_zero]
    exact mul_ne_zero hne0 (inv_ne_zero (hc _))⟩
  unfold gaussStep
  generalize (pivot s.a c s.index j s.k).2 = k at hp
  dsimp only
  obtain ⟨hjk, hk0⟩ := hp
  rw [r255div_eq, ofZ_ne_zero] at hk0
  have hak : (s.a (s.index k) j).val ≠ 0 := left_ne_zero_of_mul hk0
  set idx := swapIndex s.index j k with hidx
  have hidx' : idx = s.index ∘ Equiv.swap j k := swapIndex_eq _ _ _
  have hinj : Function.Injective idx := by rw [hidx']; exact h.inj.comp (Equiv.injective _)
  have hfold : ((List.finRange n).filter (j < ·)).foldl (fun a i => elimRow j (idx j) a (idx i)) s.a =
      (((List.finRange n).filter (j < ·)).map idx).foldl (fun a r => elimRow j (idx j) a r) s.a := by
    rw [List.foldl_map]
  have hnd : (((List.finRange n).filter (j < ·)).map idx).Nodup := ((List.nodup_finRange n).filter _).map hinj
  have hqn : idx j ∉ ((List.finRange n).filter (j < ·)).map idx := by
    rw [List.mem_map]
    rintro ⟨i, hi, he⟩
    have := hinj he
    subst this
    simp at hi
  have hmem : ∀ i, idx i ∈ ((List.finRange n).filter (j < ·)).map idx ↔ j < i := by
    intro i
    rw [List.mem_map]
    constructor
    · rintro ⟨i', hi', he⟩
      have := hinj he
      subst this
      simpa using (List.mem_filter.1 hi').2
    · intro hi
      exact ⟨i, List.mem_filter.2 ⟨List.mem_finRange i, by simpa using hi⟩, rfl⟩
  rw [hfold]
  have hjj : luOf s.a idx j j = (s.a (s.index k) j).val := by
    simp [luOf, hidx']
  have hperm : LUInv (fun i k => (A (idx i) k).val) (luOf s.a idx) j.1 := by
    refine h.lu.perm (Equiv.swap j k) ?_ ?_ ?_ ?_
    · intro i hi
      exact Equiv.swap_apply_of_ne_of_ne hi.ne (lt_of_lt_of_le hi hjk).ne
    · intro i hi
      by_cases h1 : i = j
      · subst h1; simpa using hjk
      · by_cases h2 : i = k
        · subst h2; simp
        · rw [Equiv.swap_apply_of_ne_of_ne h1 h2]; exact hi
    · intro i; rw [hidx']; rfl
    · intro i; simp only [hidx']; rfl
  refine ⟨hinj, ?_, hperm.step (by rw [hjj]; exact hak) ?_ ?_⟩
  · intro r l
    dsimp only
    rw [elimRows_eq j _ _ hnd hqn]
    split
    · unfold newRow
      split
      · rw [r255div_eq]; exact B32.canonical_ofZ _
      · split
        · exact scalarAdd_canonical _ _
        · exact h.canon r l
    · exact h.canon r l
  · intro i hi
    funext l
    simp only [luOf]
    rw [elimRows_eq j _ _ hnd hqn, if_neg (by rw [hmem]; exact not_lt.2 hi)]
  · intro i hi l
    simp only [luOf]
    rw [elimRows_eq j _ _ hnd hqn, if_pos ((hmem i).2 hi)]
    unfold newRow
    split
    · rw [r255div_eq, B32.val_ofZ]
    · split
      · rw [scalarSub_eq (h.canon _ _), B32.val_ofZ, scalarMul_eq, B32.val_ofZ, r255div_eq, B32.val_ofZ]
      · rfl

theorem filter_finRange (m : ℕ) (hm : m ≤ n) :
    (List.finRange n).filter (fun j => decide (j.1 < m)) = (List.finRange m).map (Fin.castLE hm) := by
  have hsplit : List.finRange n = (List.finRange m).map (Fin.castLE hm) ++
      (List.finRange (n - m)).map (fun x => ⟨m + x.1, by omega⟩) := by
    apply List.ext_getElem
    · simp; omega
    · intro i h1 h2
      by_cases hi : i < m
      · rw [List.getElem_append_left (by simpa using hi)]
        simp
      · rw [List.getElem_append_right (by simpa using hi)]
        simp [Fin.ext_iff]; omega
  rw [hsplit, List.filter_append, List.filter_eq_self.2, List.filter_eq_nil_iff.2, List.append_nil]
  · intro x hx; rw [List.mem_map] at hx; obtain ⟨y, _, rfl⟩ := hx; simp
  · intro x hx; rw [List.mem_map] at hx; obtain ⟨y, _, rfl⟩ := hx; simp

/-- A fold over `0, …, m-1` in `Fin n`. -/
theorem foldl_finRange_lt {σ : Type} (f : σ → Fin n → σ) (P : ℕ → σ → Prop) (m : ℕ) (hm : m ≤ n) (s : σ) (h0 : P 0 s)
    (hs : ∀ (j : Fin n) s, j.1 < m → P j.1 s → P (j.1 + 1) (f s j)) :
    P m (((List.finRange n).filter (fun j => j.1 < m)).foldl f s) := by
  rw [filter_finRange m hm, List.foldl_map]
  have : ∀ d, d ≤ m → P d (((List.finRange m).take d).foldl (fun x y => f x (Fin.castLE hm y)) s) := by
    intro d
    induction d with
    | zero => intro _; simpa using h0
    | succ d ih =>
      intro hd
      rw [List.take_add_one, List.foldl_append]
      have hg : (List.finRange m)[d]? = some ⟨d, by omega⟩ := by
        rw [List.getElem?_eq_getElem (by simp; omega)]; simp
      rw [hg]
      exact hs ⟨d, by omega⟩ _ (by show d < m; omega) (ih (by omega))
  have h := this m le_rfl
  rwa [List.take_of_length_le (by simp)] at h

/-- A fold over `m-1, …, 0` in `Fin n`. -/
theorem foldl_finRange_rev {σ : Type} (f : σ → Fin n → σ) (P : ℕ → σ → Prop) (m : ℕ) (hm : m ≤ n) (s : σ) (h0 : P m s)
    (hs : ∀ (j : Fin n) s, j.1 < m → P (j.1 + 1) s → P j.1 (f s j)) :
    P 0 (((List.finRange n).filter (fun j => j.1 < m)).reverse.foldl f s) := by
  rw [filter_finRange m hm, List.foldl_reverse, List.foldr_map]
  have : ∀ d, d ≤ m → P (m - d) (((List.finRange m).drop (m - d)).foldr (fun x y => f y (Fin.castLE hm x)) s) := by
    intro d
    induction d with
    | zero =>
      intro _
      rw [List.drop_of_length_le (by simp)]
      simpa using h0
    | succ d ih =>
      intro hd
      have hd1 : m - (d + 1) + 1 = m - d := by omega
      rw [List.drop_eq_getElem_cons (by simp; omega), List.foldr_cons, hd1]
      have h2 := ih (by omega)
      rw [← hd1] at h2
      have hlt : m - (d + 1) < (List.finRange m).length := by simp; omega
      have h3 := hs (Fin.castLE hm (List.finRange m)[m - (d + 1)]) _ (by simp; omega)
        (by simpa using h2)
      rw [hd1] at h3
      simpa using h3
  have h := this m le_rfl
  simpa using h

theorem gaussian_inv [NeZero n] (A : Mat n) (hAc : ∀ r l, (A r l).Canonical)
    (hA : ∀ w : Fin n → ZMod L, (∀ i, ∑ k, (A i k).val * w k = 0) → w = 0) (hrow : ∀ i, ∃ k, (A i k).val ≠ 0) :
    GInv A (n - 1) (gaussian A) := by
  unfold gaussian
  apply foldl_finRange_lt _ (fun j s => GInv A j s) (n - 1) (by omega)
  · refine ⟨fun a b h => h, hAc, ?_, ?_⟩
    · intro i k
      simp [luOf]
    · intro m hm; omega
  · intro j s _ hs
    apply gaussStep_inv A hA _ _ j s hs
    intro i
    have h : rowMax (A i) ≠ zero32 := by
      apply rowMax_ne_zero
      obtain ⟨k, hk⟩ := hrow i
      exact ⟨k, fun h0 => hk (by rw [h0]; simp)⟩
    have hcan : (rowMax (A i)).Canonical := by
      unfold rowMax
      have : ∀ (l : List (Fin n)) (c1 : B32), c1.Canonical →
          (l.foldl (fun c1 j => if cmp (A i j) c1 > 0 then A i j else c1) c1).Canonical := by
        intro l
        induction l with
        | nil => intro c1 h; exact h
        | cons k l ih =>
          intro c1 h
          rw [List.foldl_cons]
          apply ih
          split
          · exact hAc i k
          · exact h
      exact this _ _ zero32_canonical
    exact (ne_zero32_iff hcan).1 h

/-! ### Forward substitution -/

theorem foldRow_eq (r q : Fin n) (hq : q ≠ r) (g : B32 → B32 → B32) : ∀ (ls : List (Fin n)), ls.Nodup →
    ∀ (b : Mat n) (r' l' : Fin n), (ls.foldl (fun b l => setM b r l (g (b r l) (b q l))) b) r' l' =
      if r' = r ∧ l' ∈ ls then g (b r l') (b q l') else b r' l' := by
  intro ls
  induction ls with
  | nil => intro _ b r' l'; simp
  | cons l ls ih =>
    intro hnd b r' l'
    rw [List.nodup_cons] at hnd
    rw [List.foldl_cons, ih hnd.2]
    by_cases hr : r' = r
    · subst hr
      by_cases hl : l' ∈ ls
      · have hne : l' ≠ l := by rintro rfl; exact hnd.1 hl
        simp [hl, setM_apply, hne, hq]
      · by_cases hll : l' = l
        · subst hll; simp [hnd.1, setM_apply]
        · simp [hl, setM_apply, hll]
    · simp [hr, setM_apply]

/-- One column of the forward substitution. -/
theorem forwardStep_eq (a : Mat n) (q i : Fin n) : ∀ (rs : List (Fin n)), rs.Nodup → q ∉ rs →
    ∀ (b : Mat n) (r' k' : Fin n), (rs.foldl (fun b r => (List.finRange n).foldl (fun b k =>
      setM b r k (scalarSub (b r k) (scalarMul (a r i) (b q k)))) b) b) r' k' =
      if r' ∈ rs then scalarSub (b r' k') (scalarMul (a r' i) (b q k')) else b r' k' := by
  intro rs
  induction rs with
  | nil => intro _ _ b r' k'; simp
  | cons r rs ih =>
    intro hnd hq b r' k'
    rw [List.nodup_cons] at hnd
    rw [List.mem_cons, not_or] at hq
    rw [List.foldl_cons, ih hnd.2 hq.2]
    have h1 := foldRow_eq r q hq.1 (fun x y => scalarSub x (scalarMul (a r i) y)) (List.finRange n)
      (List.nodup_finRange n) b
    simp only [h1, List.mem_finRange, and_true]
    by_cases hr : r' ∈ rs
    · have hne : r' ≠ r := by rintro rfl; exact hnd.1 hr
      simp only [hr, if_true, hne, if_false, hq.1, List.mem_cons, or_true]
    · by_cases h : r' = r
      · subst h; simp [hr]
      · simp [hr, h]

theorem forward_spec (a : Mat n) (index : Fin n → Fin n) (hinj : Function.Injective index) (b0 : Mat n)
    (hb : ∀ r l, (b0 r l).Canonical) (p k : Fin n) :
    (forward a index b0 (index p) k).val = (b0 (index p) k).val - ∑ m, if m < p then
      luOf a index p m * (forward a index b0 (index m) k).val else 0 := by
  have h := foldl_finRange_lt (n := n) (fun b i =>
    ((List.finRange n).filter (i < ·)).foldl (fun b j =>
      (List.finRange n).foldl (fun b k =>
        setM b (index j) k (scalarSub (b (index j) k) (scalarMul (a (index j) i) (b (index i) k)))) b) b)
    (fun t b => (∀ r l, (b r l).Canonical) ∧ ∀ p k, (b (index p) k).val = (b0 (index p) k).val - ∑ m, if m < p ∧ m.1 < t then
      luOf a index p m * (b (index m) k).val else 0) (n - 1) (by omega) b0 ⟨hb, by simp⟩ (by
    intro j b hj hbb
    obtain ⟨hc, hbb⟩ := hbb
    have hfold : ((List.finRange n).filter (j < ·)).foldl (fun b j' =>
        (List.finRange n).foldl (fun b k =>
          setM b (index j') k (scalarSub (b (index j') k) (scalarMul (a (index j') j) (b (index j) k)))) b) b =
        (((List.finRange n).filter (j < ·)).map index).foldl (fun b r => (List.finRange n).foldl (fun b k =>
          setM b r k (scalarSub (b r k) (scalarMul (a r j) (b (index j) k)))) b) b := by
      rw [List.foldl_map]
    have hnd : (((List.finRange n).filter (j < ·)).map index).Nodup := ((List.nodup_finRange n).filter _).map hinj
    have hmem : ∀ i, index i ∈ ((List.finRange n).filter (j < ·)).map index ↔ j < i := by
      intro i
      rw [List.mem_map]
      constructor
      · rintro ⟨i', hi', he⟩
        have := hinj he
        subst this
        simpa using (List.mem_filter.1 hi').2
      · intro hi
        exact ⟨i, List.mem_filter.2 ⟨List.mem_finRange i, by simpa using hi⟩, rfl⟩
    have hqn : index j ∉ ((List.finRange n).filter (j < ·)).map index := by rw [hmem]; exact lt_irrefl _
    rw [hfold]
    have hcl := forwardStep_eq a (index j) j _ hnd hqn b
    generalize (((List.finRange n).filter (j < ·)).map index).foldl (fun b r => (List.finRange n).foldl (fun b k =>
          setM b r k (scalarSub (b r k) (scalarMul (a r j) (b (index j) k)))) b) b = b' at hcl
    refine ⟨?_, ?_⟩
    · intro r l
      rw [hcl]
      split
      · exact scalarAdd_canonical _ _
      · exact hc r l
    · intro p k
      rw [hcl (index p) k]
      simp only [hmem]
      rcases le_or_gt p j with hp | hp
      · rw [if_neg (not_lt.2 hp), hbb p k]
        congr 1
        apply Finset.sum_congr rfl
        intro m _
        have hp' : p.1 ≤ j.1 := hp
        by_cases hm : m < p
        · have hm' : m.1 < p.1 := hm
          have e1 : m.1 < j.1 := by omega
          have e2 : m.1 < j.1 + 1 := by omega
          have e3 : ¬ j < m := by intro h; have : j.1 < m.1 := h; omega
          simp only [hm, e1, e2, true_and, if_true]
          rw [hcl (index m) k, if_neg (by rw [hmem]; exact e3)]
        · simp only [hm, false_and, if_false]
      · rw [if_pos hp, scalarSub_eq (hc _ _), B32.val_ofZ, scalarMul_eq, B32.val_ofZ, hbb p k]
        have e : (fun m : Fin n => if m < p ∧ m.1 < j.1 + 1 then luOf a index p m * (b' (index m) k).val else 0) =
            fun m => (if m < p ∧ m.1 < j.1 then luOf a index p m * (b (index m) k).val else 0) +
              if m = j then luOf a index p j * (b (index j) k).val else 0 := by
          funext m
          rcases lt_trichotomy m j with hm | hm | hm
          · have hm' : m.1 < j.1 := hm
            have e1 : m < p := lt_trans hm hp
            have e2 : m.1 < j.1 + 1 := by omega
            rw [if_neg hm.ne, add_zero]
            simp only [e1, e2, hm', and_self, if_true]
            rw [hcl (index m) k, if_neg (by rw [hmem]; exact not_lt.2 hm.le)]
          · subst hm
            have e0 : ¬ (m < p ∧ m.1 < m.1) := fun h => lt_irrefl _ h.2
            rw [if_neg e0, zero_add, if_pos rfl]
            have e2 : m.1 < m.1 + 1 := by omega
            simp only [hp, e2, and_self, if_true]
            rw [hcl (index m) k, if_neg (by rw [hmem]; exact lt_irrefl _)]
          · have hm' : j.1 < m.1 := hm
            rw [if_neg hm.ne', if_neg (fun h => by omega), if_neg (fun h => by omega), add_zero]
        rw [e, Finset.sum_add_distrib, Finset.sum_ite_eq' Finset.univ j]
        simp only [Finset.mem_univ, if_true]
        unfold luOf
        ring)
  have h2 := h.2 p k
  unfold forward
  rw [h2]
  congr 1
  apply Finset.sum_congr rfl
  intro m _
  by_cases hm : m < p
  · have : m.1 < n - 1 := by have : m.1 < p.1 := hm; omega
    simp only [hm, this, and_self, if_true]
  · simp only [hm, false_and, if_false]

theorem forward_canonical (a : Mat n) (index : Fin n → Fin n) (b0 : Mat n)
    (hb : ∀ r l, (b0 r l).Canonical) (r l : Fin n) : (forward a index b0 r l).Canonical := by
  have hset : ∀ (b : Mat n) r' l' v, (∀ r l, (b r l).Canonical) → v.Canonical → ∀ r l, (setM b r' l' v r l).Canonical := by
    intro b r' l' v h hv r l
    rw [setM_apply]
    split
    · exact hv
    · exact h r l
  have hf : ∀ {α : Type} (l : List α) (f : Mat n → α → Mat n), (∀ b x, (∀ r l, (b r l).Canonical) →
      ∀ r l, (f b x r l).Canonical) → ∀ b, (∀ r l, (b r l).Canonical) → ∀ r l', ((l.foldl f b) r l').Canonical := by
    intro α l f hf
    induction l with
    | nil => intro b h; exact h
    | cons x l ih => intro b h; exact ih _ (hf b x h)
  unfold forward
  apply hf _ _ _ _ hb
  intro b x h
  apply hf _ _ _ _ h
  intro b y h
  apply hf _ _ _ _ h
  intro b z h
  exact hset _ _ _ _ h (scalarAdd_canonical _ _)

/-! ### Backward substitution -/

theorem sum_filter_finRange (p : Fin n → Prop) [DecidablePred p] (f : Fin n → ZMod L) :
    (((List.finRange n).filter (fun k => decide (p k))).map f).sum = ∑ k, if p k then f k else 0 := by
  rw [← List.sum_toFinset _ ((List.nodup_finRange n).filter _), ← Finset.sum_filter]
  apply Finset.sum_congr
  · ext; simp
  · intros; rfl

theorem setM_setM (x : Mat n) (j i : Fin n) (v w : B32) : setM (setM x j i v) j i w = setM x j i w := by
  funext r c
  simp only [setM_apply]
  split <;> simp_all

theorem backStep_eq (a : Mat n) (index : Fin n → Fin n) (b : Mat n) (i : Fin n) (x : Mat n) (j : Fin n)
    (hb : (b (index j) i).Canonical) : backStep a index b i x j = setM x j i (B32.ofZ
      (((b (index j) i).val - ∑ k, if j < k then luOf a index j k * (x k i).val else 0) * (luOf a index j j)⁻¹)) := by
  unfold backStep
  have key : ∀ (ks : List (Fin n)), (∀ k ∈ ks, j < k) → ∀ w : B32, w.Canonical →
      ks.foldl (fun x k => setM x j i (scalarSub (x j i) (scalarMul (a (index j) k) (x k i)))) (setM x j i w) =
        setM x j i (B32.ofZ (w.val - (ks.map fun k => luOf a index j k * (x k i).val).sum)) := by
    intro ks
    induction ks with
    | nil => intro _ w hw; simp [B32.ofZ_val hw]
    | cons k ks ih =>
      intro h w hw
      have hk : k ≠ j := (h k (by simp)).ne'
      rw [List.foldl_cons, setM_setM]
      have e1 : setM x j i w j i = w := by rw [setM_apply]; simp
      have e2 : setM x j i w k i = x k i := by rw [setM_apply]; simp [hk]
      rw [e1, e2, ih (fun k hk => h k (by simp [hk])) (scalarSub _ _) (scalarAdd_canonical _ _)]
      refine congrArg (fun z => setM x j i (B32.ofZ z)) ?_
      rw [scalarSub_eq hw, scalarMul_eq, B32.val_ofZ, B32.val_ofZ, List.map_cons, List.sum_cons]
      unfold luOf
      ring
  dsimp only
  rw [key _ (fun k hk => by simpa using (List.mem_filter.1 hk).2) _ hb, setM_setM]
  refine congrArg (fun z => setM x j i z) ?_
  have e1 : ∀ w, setM x j i w j i = w := fun w => by rw [setM_apply]; simp
  rw [e1, scalarMul_eq, scalarInvert_eq, B32.val_ofZ, B32.val_ofZ, sum_filter_finRange]
  rfl

/-- The equation solved by the backward substitution. -/
def BackEq (a : Mat n) (index : Fin n → Fin n) (b x : Mat n) (j i : Fin n) : Prop :=
  (x j i).val = ((b (index j) i).val - ∑ k, if j < k then luOf a index j k * (x k i).val else 0) *
    (luOf a index j j)⁻¹

theorem backColumn_spec [NeZero n] (a : Mat n) (index : Fin n → Fin n) (b : Mat n) (hb : ∀ r l, (b r l).Canonical)
    (i : Fin n) (x : Mat n) :
    let last : Fin n := Fin.ofNat n (n - 1)
    let x' := ((List.finRange n).filter (fun j => j.1 < n - 1)).reverse.foldl (backStep a index b i)
      (setM x last i (scalarMul (b (index last) i) (scalarInvert (a (index last) last)).2))
    (∀ r c, c ≠ i → x' r c = x r c) ∧ ∀ j, BackEq a index b x' j i := by
  intro last
  have hn : 0 < n := Nat.pos_of_ne_zero (NeZero.ne n)
  have hlast : last.1 = n - 1 := by
    show (n - 1) % n = n - 1
    exact Nat.mod_eq_of_lt (by omega)
  have h := foldl_finRange_rev (n := n) (backStep a index b i)
    (fun t x' => (∀ r c, c ≠ i → x' r c = x r c) ∧ ∀ j : Fin n, t ≤ j.1 → BackEq a index b x' j i) (n - 1) (by omega)
    (setM x last i (scalarMul (b (index last) i) (scalarInvert (a (index last) last)).2)) ⟨?_, ?_⟩ ?_
  · exact ⟨h.1, fun j => h.2 j (Nat.zero_le _)⟩
  · intro r c hc
    rw [setM_apply]; simp [hc]
  · intro j hj
    have : j = last := Fin.ext (by rw [hlast]; omega)
    subst this
    unfold BackEq
    rw [setM_apply, if_pos ⟨rfl, rfl⟩, scalarMul_eq, scalarInvert_eq, B32.val_ofZ, B32.val_ofZ]
    rw [Finset.sum_eq_zero, sub_zero]
    · rfl
    · intro k _
      rw [if_neg]
      intro hk
      have : last.1 < k.1 := hk
      omega
  · intro j x' hj hx'
    obtain ⟨h1, h2⟩ := hx'
    rw [backStep_eq a index b i x' j (hb _ _)]
    have hother : ∀ v k, k ≠ j → setM x' j i v k i = x' k i := by
      intro v k hk; rw [setM_apply]; simp [hk]
    refine ⟨?_, ?_⟩
    · intro r c hc
      rw [setM_apply, if_neg (fun h => hc h.2), h1 r c hc]
    · intro p hp
      unfold BackEq
      have hsum : ∀ v, j ≤ p → (∑ k, if p < k then luOf a index p k * (setM x' j i v k i).val else 0) =
          ∑ k, if p < k then luOf a index p k * (x' k i).val else 0 := by
        intro v hjp
        apply Finset.sum_congr rfl
        intro k _
        split
        · rename_i hk
          rw [hother v k (lt_of_le_of_lt hjp hk).ne']
        · rfl
      rw [hsum _ hp]
      by_cases hpj : p = j
      · subst hpj
        rw [setM_apply, if_pos ⟨rfl, rfl⟩, B32.val_ofZ]
      · rw [hother _ p hpj]
        have : p.1 ≠ j.1 := fun h => hpj (Fin.ext h)
        exact h2 p (by omega)

theorem backward_spec [NeZero n] (a : Mat n) (index : Fin n → Fin n) (b : Mat n) (hb : ∀ r l, (b r l).Canonical)
    (x : Mat n) (j i : Fin n) : BackEq a index b (backward a index b x) j i := by
  have key : ∀ (l : List (Fin n)), l.Nodup → ∀ x : Mat n,
      let x' := l.foldl (fun x i =>
        let x := setM x (Fin.ofNat n (n - 1)) i (scalarMul (b (index (Fin.ofNat n (n - 1))) i)
          (scalarInvert (a (index (Fin.ofNat n (n - 1))) (Fin.ofNat n (n - 1)))).2)
        ((List.finRange n).filter (fun j => j.1 < n - 1)).reverse.foldl (backStep a index b i) x) x
      (∀ r c, c ∉ l → x' r c = x r c) ∧ ∀ i ∈ l, ∀ j, BackEq a index b x' j i := by
    intro l
    induction l with
    | nil => intro _ x; simp
    | cons c l ih =>
      intro hnd x
      rw [List.nodup_cons] at hnd
      have hcol := backColumn_spec a index b hb c x
      have hih := ih hnd.2 (((List.finRange n).filter (fun j => j.1 < n - 1)).reverse.foldl (backStep a index b c)
        (setM x (Fin.ofNat n (n - 1)) c (scalarMul (b (index (Fin.ofNat n (n - 1))) c)
          (scalarInvert (a (index (Fin.ofNat n (n - 1))) (Fin.ofNat n (n - 1)))).2)))
      dsimp only at hcol hih ⊢
      rw [List.foldl_cons]
      refine ⟨?_, ?_⟩
      · intro r c' hc'
        rw [List.mem_cons, not_or] at hc'
        rw [hih.1 r c' hc'.2, hcol.1 r c' hc'.1]
      · intro i hi j
        rcases List.mem_cons.1 hi with rfl | hi
        · have h2 := hcol.2 j
          unfold BackEq at h2 ⊢
          simp only [hih.1 _ _ hnd.1]
          exact h2
        · exact hih.2 i hi j
  exact (key _ (List.nodup_finRange n) x).2 i (List.mem_finRange i) j

/-! ### The inverse -/

theorem invert_spec [NeZero n] (A x0 : Mat n) (hAc : ∀ r l, (A r l).Canonical)
    (hA : ∀ w : Fin n → ZMod L, (∀ i, ∑ k, (A i k).val * w k = 0) → w = 0) (hrow : ∀ i, ∃ k, (A i k).val ≠ 0)
    (r c : Fin n) : ∑ k, (A r k).val * (invert A x0 k c).val = if r = c then 1 else 0 := by
  have hinv := gaussian_inv A hAc hA hrow
  unfold invert
  generalize gaussian A = s at hinv
  obtain ⟨a, index, k⟩ := s
  obtain ⟨hinj, hcan, hlu⟩ := hinv
  dsimp only at hinj hcan hlu ⊢
  have hbij : Function.Bijective index := Finite.injective_iff_bijective.1 hinj
  have hA' : ∀ w : Fin n → ZMod L, (∀ i, ∑ k, (A (index i) k).val * w k = 0) → w = 0 := by
    intro w hw
    apply hA
    intro i
    obtain ⟨i', rfl⟩ := hbij.2 i
    exact hw i'
  have hn : 0 < n := Nat.pos_of_ne_zero (NeZero.ne n)
  have hdiag : ∀ m, luOf a index m m ≠ 0 := by
    intro m
    by_cases hm : m.1 < n - 1
    · exact hlu.2 m hm
    · have hm' : m.1 = n - 1 := by omega
      rw [← hm'] at hlu
      obtain ⟨i, hi, hne⟩ := exists_pivot _ _ m hlu hA'
      have : i = m := Fin.ext (by have : m.1 ≤ i.1 := hi; omega)
      rwa [this] at hne
  set b0 : Mat n := fun i j => if i = j then B32.ofByte 1 else zero32 with hb0
  have hb0c : ∀ r l, (b0 r l).Canonical := by
    intro r l
    simp only [hb0]
    split
    · exact B32.ofByte_canonical _
    · exact zero32_canonical
  have hfc := forward_canonical a index b0 hb0c
  have hf := forward_spec a index hinj b0 hb0c
  have hbk := backward_spec a index (forward a index b0) hfc x0
  obtain ⟨p, rfl⟩ := hbij.2 r
  rw [hlu.solve (fun i => (forward a index b0 (index i) c).val)
    (fun k => (backward a index (forward a index b0) x0 k c).val) (fun i => (b0 (index i) c).val) ?_ ?_ p]
  · simp only [hb0]
    split
    · simp
    · simp
  · intro i
    exact hf i c
  · intro j
    have h := hbk j c
    unfold BackEq at h
    have e : (fun k => if j ≤ k then luOf a index j k * (backward a index (forward a index b0) x0 k c).val else 0) =
        fun k => (if k = j then luOf a index j j * (backward a index (forward a index b0) x0 j c).val else 0) +
          if j < k then luOf a index j k * (backward a index (forward a index b0) x0 k c).val else 0 := by
      funext k
      rcases lt_trichotomy j k with hk | hk | hk
      · rw [if_pos hk.le, if_neg hk.ne', if_pos hk, zero_add]
      · subst hk; simp
      · rw [if_neg (not_le.2 hk), if_neg hk.ne, if_neg (not_lt.2 hk.le), add_zero]
    rw [e, Finset.sum_add_distrib, Finset.sum_ite_eq' Finset.univ j]
    simp only [Finset.mem_univ, if_true]
    rw [h]
    have := hdiag j
    field_simp
    ring

theorem genVDM_eq (indexes : Fin n → UInt8) (i j : Fin n) :
    genVDM indexes i j = B32.ofZ (((indexes i).toNat : ZMod L) ^ j.1) := by
  unfold genVDM
  generalize j.1 = m
  induction m with
  | zero =>
    simp only [List.range_zero, List.foldl_nil, pow_zero]
    rw [← B32.ofZ_val (B32.ofByte_canonical 1)]
    simp
  | succ m ih =>
    rw [List.range_succ, List.foldl_append, ih, List.foldl_cons, List.foldl_nil, scalarMul_eq, B32.val_ofZ,
      B32.val_ofByte, pow_succ]

theorem vdm_injective (indexes : Fin n → UInt8) (h : Function.Injective indexes) (w : Fin n → ZMod L)
    (hw : ∀ i, ∑ k, (genVDM indexes i k).val * w k = 0) : w = 0 := by
  have hdet : (Matrix.vandermonde fun i => ((indexes i).toNat : ZMod L)).det ≠ 0 := by
    rw [Matrix.det_vandermonde_ne_zero_iff]
    intro a b hab
    exact h (byte_val_inj hab)
  apply Matrix.eq_zero_of_mulVec_eq_zero hdet
  funext i
  have := hw i
  simp only [genVDM_eq, B32.val_ofZ] at this
  simpa [Matrix.mulVec, dotProduct, Matrix.vandermonde_apply] using this

end Verif.Mpmult
