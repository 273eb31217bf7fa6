import Verif.Spec.Sharing
import Mathlib.LinearAlgebra.Lagrange

/-!
# Lemmas about sharings: Lagrange coefficients and polynomials
-/

namespace Verif

open Polynomial Spec

theorem point_inj : Function.Injective point := fun _ _ h => byte_val_inj h

/-- Polynomial with the given coefficients, constant term first. -/
noncomputable def polyOf : List (ZMod L) → (ZMod L)[X]
  | [] => 0
  | c :: cs => Polynomial.C c + X * polyOf cs

theorem polyOf_degree : ∀ cs : List (ZMod L), (polyOf cs).degree < cs.length
  | [] => by simp [polyOf]
  | c :: cs => by
    have ih := polyOf_degree cs
    rw [polyOf, List.length_cons]
    refine lt_of_le_of_lt (degree_add_le _ _) (max_lt ?_ ?_)
    · refine lt_of_le_of_lt degree_C_le ?_
      exact_mod_cast Nat.succ_pos _
    · rcases eq_or_ne (polyOf cs) 0 with h | h
      · rw [h, mul_zero, degree_zero]; exact WithBot.bot_lt_coe _
      · rw [degree_mul, degree_X, degree_eq_natDegree h]
        rw [degree_eq_natDegree h] at ih
        have : (polyOf cs).natDegree < cs.length := by exact_mod_cast ih
        have h2 : 1 + (polyOf cs).natDegree < cs.length + 1 := by omega
        exact_mod_cast h2

theorem polyOf_eval_cons (c x : ZMod L) (cs : List (ZMod L)) :
    (polyOf (c :: cs)).eval x = c + x * (polyOf cs).eval x := by simp [polyOf]

theorem polyOf_eval_zero (c : ZMod L) (cs : List (ZMod L)) : (polyOf (c :: cs)).eval 0 = c := by
  simp [polyOf]

theorem lagrange_perm {p p' : List UInt8} (h : p.Perm p') (i : UInt8) : lagrange p i = lagrange p' i := by
  unfold lagrange
  exact ((h.filter _).map _).prod_eq

/-- Interpolation at 0 with the coefficients of the specification. -/
theorem lagrange_sum (peers : List UInt8) (hn : peers.Nodup) (f : (ZMod L)[X]) (hf : f.degree < peers.length) :
    (peers.map fun i => lagrange peers i * f.eval (point i)).sum = f.eval 0 := by
  classical
  have hcard : peers.toFinset.card = peers.length := List.toFinset_card_of_nodup hn
  have h := Lagrange.eq_interpolate_of_eval_eq (s := peers.toFinset) (v := point) (f := f)
    (fun i => f.eval (point i)) (fun a _ b _ hab => point_inj hab) (by rw [hcard]; exact hf) (fun i _ => rfl)
  conv_rhs => rw [h, Lagrange.interpolate_apply, eval_finsetSum]
  rw [← List.sum_toFinset _ hn]
  apply Finset.sum_congr rfl
  intro i hi
  rw [eval_mul, eval_C, mul_comm]
  congr 1
  unfold lagrange Lagrange.basis
  rw [eval_prod]
  have hperm : (peers.filter (· ≠ i)).toFinset = peers.toFinset.erase i := by
    ext a; simp [and_comm]
  rw [← hperm, List.prod_toFinset _ (hn.filter _)]
  congr 1
  apply List.map_congr_left
  intro j hj
  simp only [Lagrange.basisDivisor, eval_mul, eval_C, eval_sub, eval_X, zero_sub]
  have hne : point j ≠ point i := fun h => by
    have := point_inj h
    simp [this] at hj
  have h1 : point j - point i ≠ 0 := sub_ne_zero.2 hne
  have h2 : point i - point j ≠ 0 := sub_ne_zero.2 hne.symm
  field_simp
  ring

/-- Lagrange coefficients do not vanish at non-zero points. -/
theorem lagrange_ne_zero (peers : List UInt8) (i : UInt8) (h0 : ∀ j ∈ peers, j ≠ i → j ≠ 0) : lagrange peers i ≠ 0 := by
  unfold lagrange
  rw [Ne, List.prod_eq_zero_iff, List.mem_map]
  rintro ⟨j, hj, h⟩
  rw [List.mem_filter] at hj
  have hji : j ≠ i := by simpa using hj.2
  rw [div_eq_zero_iff] at h
  rcases h with h | h
  · apply h0 j hj.1 hji
    apply point_inj
    rw [h]; simp [point]
  · exact hji (point_inj (sub_eq_zero.1 h))

end Verif
