import Verif.Proofs.Oprf

/-!
# Concrete witnesses

Instances used in the `example`s that show that the hypotheses of the property theorems can be met.
-/

namespace Verif.Toy

open Ristretto

/-- A hash with constant output (first byte one). -/
@[reducible] def hashes : Hashes where
  sha512 _ := Vector.ofFn fun i => if i.1 = 0 then 1 else 0
  generichash64 _ := Vector.ofFn fun i => if i.1 = 0 then 1 else 0
  generichash32 _ := Vector.ofFn fun i => if i.1 = 0 then 1 else 0

attribute [local instance] Ristretto.toy Toy.hashes

theorem hashToGroup_eq (x : Bytes) : Spec.hashToGroup (ZMod L) Oprf.sha x = (1 : ZMod L) := by
  have h : Spec.expandMessageXmd Oprf.sha x Spec.hashToGroupDst 64 =
      (Vector.ofFn fun i : Fin 64 => if i.1 = 0 then (1 : UInt8) else 0).toList := by
    simp only [Spec.expandMessageXmd, Nat.reduceAdd, Nat.reduceDiv, List.range_one, List.flatMap_cons,
      Spec.xmdBlock, List.flatMap_nil, List.append_nil]
    rfl
  unfold Spec.hashToGroup
  rw [h]
  have : ∀ v : B64, (leNat v.toList = 1) → (Ristretto.fromHash v : ZMod L) = 1 := by
    intro v hv
    show ((leNat v.toList : ℕ) : ZMod L) = 1
    rw [hv]; simp
  apply this
  decide +kernel

theorem hashToGroup_ne (x : Bytes) : Spec.hashToGroup (ZMod L) Oprf.sha x ≠ (0 : ZMod L) := by
  rw [hashToGroup_eq]; exact one_ne_zero

theorem natCast_ne_zero {n : ℕ} (h0 : n ≠ 0) (h : n < 2 ^ 252) : (n : ZMod L) ≠ 0 := by
  intro hc
  rw [ZMod.natCast_eq_zero_iff] at hc
  have := Nat.le_of_dvd (Nat.pos_of_ne_zero h0) hc
  have := L_gt
  omega

theorem randomScalar (n : ℕ) (h0 : n ≠ 0) (h : n < 2 ^ 252) : RandomScalar (B32.ofZ (n : ZMod L)) :=
  randomScalar_ofZ (natCast_ne_zero h0 h)

end Verif.Toy
