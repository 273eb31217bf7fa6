import Verif.Model.Tests
import Verif.Props.Mpmult

/-!
# Helper lemmas about the degree check of `/repo/src/tests/mpmult.c`
-/

namespace Verif.Tests

open Ristretto Spec Polynomial Mpmult Toprf

theorem power_eq (delta : B32) : ∀ j, power delta j = B32.ofZ (delta.val ^ j)
  | 0 => by rw [power, ofByte_eq]; simp [point]
  | j + 1 => by rw [power, power_eq delta j, scalarMul_eq, B32.val_ofZ, pow_succ]

/-- The weight of element `c` -/
noncomputable def weight (inverted : List B32) (d : ZMod L) (t c : ℕ) : ZMod L :=
  ∑ j ∈ Finset.range (t + 1), (inverted.getD (j * t + c) zero32).val * d ^ j

theorem weightLoop_eq (inverted : List B32) (delta : B32) (t c : ℕ) : ∀ (m j : ℕ) (a : ZMod L),
    (∀ i, i < m → (j + i) * t + c < inverted.length) →
    weightLoop inverted delta t c m j (B32.ofZ a) =
      .ok (B32.ofZ (a + ∑ i ∈ Finset.range m, (inverted.getD ((j + i) * t + c) zero32).val * delta.val ^ (j + i)))
  | 0, _, a, _ => by simp [weightLoop]
  | m + 1, j, a, h => by
    have h0 : j * t + c < inverted.length := by simpa using h 0 (by omega)
    rw [weightLoop, ld_ok h0, C.ok_bind, power_eq, scalarMul_eq, B32.val_ofZ,
      scalarAdd_eq (B32.canonical_ofZ _) (B32.canonical_ofZ _), B32.val_ofZ, B32.val_ofZ,
      weightLoop_eq inverted delta t c m (j + 1) _ (fun i hi => by
        have := h (i + 1) (by omega)
        rwa [show j + (i + 1) = j + 1 + i by omega] at this), Finset.sum_range_succ']
    have e : inverted.getD ((j + 0) * t + c) zero32 = inverted[j * t + c] := by
      simp [h0]
    rw [e]
    congr 2
    rw [add_assoc, add_comm (∑ _ ∈ _, _)]
    simp only [add_zero, add_assoc, add_comm 1]

theorem flat_length {n : ℕ} [NeZero n] (a : Mat n) : (flat a).length = n * n := by simp [flat]

theorem flat_getD {n : ℕ} [NeZero n] (a : Mat n) {k : ℕ} (h : k < n * n) :
    (flat a).getD k zero32 = a (Fin.ofNat n (k / n)) (Fin.ofNat n (k % n)) := by
  simp [flat, h]

variable (G : Type) [Ristretto G]

open Classical in
/-- What element `c` contributes: nothing if it is malformed or the product is the identity -/
noncomputable def part (A inverted : List B32) (d : ZMod L) (t c : ℕ) : Option G :=
  match dec (G := G) (A.getD c zero32) with
  | none => none
  | some P => if weight inverted d t c • P = 0 then none else some (weight inverted d t c • P)

theorem vspsLoop_eq (scratch : B32) (A inverted : List B32) (delta : B32) (t : ℕ)
    (hi : (t + 1) * (t + 1) ≤ inverted.length) (hA : t + 1 ≤ A.length) : ∀ (m c : ℕ) (v : G), c + m = t + 1 →
    ((∀ i, i < m → part G A inverted delta.val t (c + i) ≠ none) ∧
      vspsLoop G scratch A inverted delta t m c (enc v) =
        .ok (0, enc (v + ∑ i ∈ Finset.range m, (part G A inverted delta.val t (c + i)).getD 0))) ∨
    ((∃ i, i < m ∧ part G A inverted delta.val t (c + i) = none) ∧
      ∃ w, vspsLoop G scratch A inverted delta t m c (enc v) = .ok (1, w))
  | 0, c, v, _ => by left; simp [vspsLoop]
  | m + 1, c, v, h => by
    have hc : c < A.length := by omega
    have hw : weightLoop inverted delta t c (t + 1) 0 zero32 = .ok (B32.ofZ (weight inverted delta.val t c)) := by
      rw [zero32_eq, weightLoop_eq inverted delta t c (t + 1) 0 0 (fun i hi' => by
        have h1 : (0 + i) * t ≤ t * t := Nat.mul_le_mul_right _ (by omega)
        have h2 : (t + 1) * (t + 1) = t * t + 2 * t + 1 := by ring
        omega), zero_add]
      simp only [zero_add, weight, zero32_eq]
    have hAc : A.getD c zero32 = A[c] := by simp [hc]
    rw [vspsLoop, hw, C.ok_bind, ld_ok hc, C.ok_bind]
    cases hd : dec (G := G) A[c] with
    | none =>
      right
      refine ⟨⟨0, by omega, ?_⟩, ?_⟩
      · rw [Nat.add_zero, part, hAc, hd]
      · simp [scalarmult, hd]
    | some P =>
      have hP : A[c] = enc P := (enc_dec _ _ hd).symm
      by_cases hz : weight inverted delta.val t c • P = 0
      · right
        refine ⟨⟨0, by omega, ?_⟩, ?_⟩
        · rw [Nat.add_zero, part, hAc, hd]
          simp [hz]
        · rw [hP, scalarmult_enc, maskedVal_ofZ]
          simp [hz, enc_zero]
      · have hpart : part G A inverted delta.val t c = some (weight inverted delta.val t c • P) := by
          rw [part, hAc, hd]
          simp [hz]
        have hs : scalarmult G scratch (B32.ofZ (weight inverted delta.val t c)) A[c] =
            (0, enc (weight inverted delta.val t c • P)) := by
          rw [hP, scalarmult_enc_ok _ _ (by rwa [maskedVal_ofZ]), maskedVal_ofZ]
        dsimp only
        rw [hs]
        simp only [ne_eq, not_true_eq_false, if_false, pointAdd_enc]
        rcases vspsLoop_eq scratch A inverted delta t hi hA m (c + 1) (v + weight inverted delta.val t c • P) (by omega)
          with ⟨h1, h2⟩ | ⟨⟨i, h1, h2⟩, w, h3⟩
        · left
          refine ⟨?_, ?_⟩
          · intro i hi'
            cases i with
            | zero => rw [Nat.add_zero, hpart]; simp
            | succ i => rw [show c + (i + 1) = c + 1 + i by omega]; exact h1 i (by omega)
          · rw [h2, Finset.sum_range_succ']
            rw [show c + 0 = c from rfl, hpart, Option.getD_some, add_assoc, add_comm (weight _ _ _ _ • P)]
            simp only [add_assoc, add_comm 1]
        · right
          exact ⟨⟨i + 1, by omega, by rw [show c + (i + 1) = c + 1 + i by omega]; exact h2⟩, w, h3⟩

theorem vsps_cases (scratch : B32) (t : ℕ) (ht : t ≠ 0) (A inverted : List B32) (delta : B32)
    (hi : (t + 1) * (t + 1) ≤ inverted.length) (hA : t + 1 ≤ A.length) :
    ((∀ c, c < t + 1 → part G A inverted delta.val t c ≠ none) ∧ vsps G scratch t A delta inverted =
        .ok (0, enc (∑ c ∈ Finset.range (t + 1), (part G A inverted delta.val t c).getD 0))) ∨
    ((∃ c, c < t + 1 ∧ part G A inverted delta.val t c = none) ∧
      ∃ w, vsps G scratch t A delta inverted = .ok (1, w)) := by
  have := vspsLoop_eq G scratch A inverted delta t hi hA (t + 1) 0 0 (by omega)
  rw [enc_zero] at this
  simp only [zero_add] at this
  simpa [vsps, ht] using this

end Verif.Tests
