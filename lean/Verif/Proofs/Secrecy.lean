import Verif.Spec.Secrecy
import Verif.Proofs.Sharing
import Mathlib.Data.Fintype.BigOperators

/-!
# Counting the polynomials that explain a view
-/

namespace Verif.Spec

open Ristretto Polynomial

/-- The part of a share that depends on the random coefficients -/
def mask {m : ℕ} (S : Finset UInt8) (a : Fin m → ZMod L) (i : S) : ZMod L := ∑ j, a j * point i ^ (j.val + 1)

theorem mask_injective {m : ℕ} {S : Finset UInt8} (h0 : (0 : UInt8) ∉ S) (hS : S.card = m) :
    Function.Injective (mask (m := m) S) := by
  intro a b hab
  have hP : ∀ x, (∑ j : Fin m, (Polynomial.C (a j - b j) * X ^ (j.val + 1) : (ZMod L)[X])).eval x =
      ∑ j : Fin m, (a j - b j) * x ^ (j.val + 1) := fun x => by
    rw [eval_finset_sum]
    simp
  have hdeg : (∑ j : Fin m, (Polynomial.C (a j - b j) * X ^ (j.val + 1) : (ZMod L)[X])).degree < (insert 0 S).card := by
    rw [Finset.card_insert_of_notMem h0, hS]
    refine lt_of_le_of_lt (degree_sum_le _ _) ?_
    rw [Finset.sup_lt_iff (by exact_mod_cast WithBot.bot_lt_coe _)]
    intro j _
    refine lt_of_le_of_lt (degree_C_mul_X_pow_le _ _) ?_
    exact_mod_cast Nat.add_lt_add_right j.2 1
  have hz : (∑ j : Fin m, (Polynomial.C (a j - b j) * X ^ (j.val + 1) : (ZMod L)[X])) = 0 := by
    refine eq_zero_of_degree_lt_of_eval_index_eq_zero (v := point) (insert 0 S)
      (fun _ _ _ _ h => point_inj h) hdeg fun i hi => ?_
    rw [hP]
    rcases Finset.mem_insert.1 hi with rfl | hi
    · refine Finset.sum_eq_zero fun j _ => ?_
      simp [point]
    · have := congrFun hab ⟨i, hi⟩
      unfold mask at this
      simp only [sub_mul, Finset.sum_sub_distrib]
      exact sub_eq_zero.2 this
  funext j
  have hc := congrArg (fun p => p.coeff (j.val + 1)) hz
  simp only [finset_sum_coeff, coeff_C_mul, coeff_X_pow, coeff_zero] at hc
  rw [Finset.sum_eq_single j (fun b _ hb => by
    rw [if_neg (fun h => hb (Fin.ext (by omega))), mul_zero]) (fun h => absurd (Finset.mem_univ _) h), if_pos rfl,
    mul_one] at hc
  exact sub_eq_zero.1 hc

theorem mask_bijective {m : ℕ} {S : Finset UInt8} (h0 : (0 : UInt8) ∉ S) (hS : S.card = m) :
    Function.Bijective (mask (m := m) S) := by
  classical
  refine (Fintype.bijective_iff_injective_and_card _).2 ⟨mask_injective h0 hS, ?_⟩
  rw [Fintype.card_fun, Fintype.card_fun, Fintype.card_fin, Fintype.card_coe, hS]

theorem card_zero_at {m : ℕ} (j : Fin m) : {a : Fin m → ZMod L | a j = 0}.ncard = L ^ (m - 1) := by
  classical
  have e : {a : Fin m → ZMod L | a j = 0} =
      ↑(Fintype.piFinset fun i : Fin m => if i = j then ({0} : Finset (ZMod L)) else Finset.univ) := by
    ext a
    rw [Set.mem_setOf_eq, Finset.mem_coe, Fintype.mem_piFinset]
    constructor
    · intro h i
      split
      · rename_i hi
        rw [hi, h]
        exact Finset.mem_singleton_self 0
      · exact Finset.mem_univ _
    · intro h
      have := h j
      rw [if_pos rfl] at this
      exact Finset.mem_singleton.1 this
  rw [e, Set.ncard_coe_finset, Fintype.card_piFinset, ← Finset.mul_prod_erase Finset.univ _ (Finset.mem_univ j), if_pos rfl,
    Finset.card_singleton, one_mul, Finset.prod_congr rfl (g := fun _ => L) (fun i hi => by
      rw [if_neg (Finset.ne_of_mem_erase hi), Finset.card_univ, ZMod.card]), Finset.prod_const,
    Finset.card_erase_of_mem (Finset.mem_univ j), Finset.card_univ, Fintype.card_fin]

/-- Few vectors are sent to one with a 0 by a permutation. -/
theorem card_lost {m : ℕ} (φ : (Fin m → ZMod L) ≃ (Fin m → ZMod L)) :
    {a | Drawable a ∧ ¬ Drawable (φ a)}.ncard ≤ m * L ^ (m - 1) := by
  classical
  have h1 : {a | Drawable a ∧ ¬ Drawable (φ a)}.ncard ≤ (⋃ j : Fin m, {a : Fin m → ZMod L | a j = 0}).ncard := by
    refine Set.ncard_le_ncard_of_injOn φ (fun a ha => ?_) (φ.injective.injOn) (Set.toFinite _)
    obtain ⟨-, ha⟩ := ha
    unfold Drawable at ha
    push_neg at ha
    exact Set.mem_iUnion.2 ha
  have h2 : (⋃ j : Fin m, {a : Fin m → ZMod L | a j = 0}).ncard ≤ ∑ j : Fin m, {a : Fin m → ZMod L | a j = 0}.ncard := by
    have := Finset.card_biUnion_le (s := Finset.univ) (t := fun j : Fin m => Finset.univ.filter fun a : Fin m → ZMod L => a j = 0)
    rw [← Set.ncard_coe_finset, Finset.coe_biUnion] at this
    simpa [← Set.ncard_coe_finset] using this
  refine h1.trans (h2.trans ?_)
  rw [Finset.sum_congr rfl (g := fun _ => L ^ (m - 1)) (fun j _ => card_zero_at j), Finset.sum_const, Finset.card_univ,
    Fintype.card_fin, smul_eq_mul]

/-- The pairing of the coefficients for the secrets `s` and `s'` -/
theorem exists_pairing {m : ℕ} {S : Finset UInt8} (h0 : (0 : UInt8) ∉ S) (hS : S.card = m) (s s' : ZMod L) :
    ∃ φ : (Fin m → ZMod L) ≃ (Fin m → ZMod L), ∀ a, ∀ i : S, s' + mask S (φ a) i = s + mask S a i := by
  let e := Equiv.ofBijective _ (mask_bijective h0 hS)
  refine ⟨(e.trans (Equiv.addRight fun _ => s - s')).trans e.symm, fun a i => ?_⟩
  have : mask S (e.symm (mask S a + fun _ => s - s')) = mask S a + fun _ => s - s' := e.apply_symm_apply _
  show s' + mask S (e.symm (mask S a + fun _ => s - s')) i = _
  rw [this, Pi.add_apply]
  ring

theorem drawn_lt {m : ℕ} (a : Fin m → ZMod L) (j : Fin m) : drawn a j = B32.ofZ (a j) := by
  unfold drawn
  rw [dif_pos j.2]

end Verif.Spec
