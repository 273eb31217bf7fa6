import Verif.Sodium.Group
import Verif.Spec.Sharing
import Mathlib.LinearAlgebra.Lagrange
import Mathlib.Data.Set.Card

/-!
# Specification of secrecy

Secrecy is stated by coupling: what is seen of one secret is seen of any other one, for other random values, and the pairing
of the random values is one to one. The only loss is that libsodium never draws 0.
-/

namespace Verif.Spec

open Ristretto Polynomial

/-- The scalars drawn, as libsodium writes them -/
noncomputable def drawn {m : ℕ} (a : Fin m → ZMod L) (j : ℕ) : B32 := if h : j < m then B32.ofZ (a ⟨j, h⟩) else zero32

/-- What libsodium draws: no 0. There are `(L - 1) ^ m` such vectors, all equally likely. -/
def Drawable {m : ℕ} (a : Fin m → ZMod L) : Prop := ∀ j, a j ≠ 0

/-- The two views have almost the same distribution: the vectors are paired such that the views are the same, and all but
`m * L ^ (m - 1)` of those that can be drawn are paired with one that can be drawn, too. -/
def Close {α : Type} {m : ℕ} (view view' : (Fin m → ZMod L) → α) : Prop :=
  ∃ φ : (Fin m → ZMod L) ≃ (Fin m → ZMod L), (∀ a, view' (φ a) = view a) ∧
    {a | Drawable a ∧ ¬ Drawable (φ a)}.ncard ≤ m * L ^ (m - 1)

variable (G : Type) [Ristretto G]

/-- The `k`-th commitment, computed from the commitment `A` to the secret and the shares `v` of the receivers in `S`. -/
noncomputable def simulate (S : Finset UInt8) (A : G) (v : UInt8 → ZMod L) (k : ℕ) : G :=
  ∑ i ∈ insert 0 S, (Lagrange.basis (insert 0 S) point i).coeff k • (if i = 0 then A else v i • (base : G))

end Verif.Spec
