import Verif.Model.Toprf
import Mathlib.Algebra.Polynomial.Eval.Degree
import Mathlib.Algebra.Polynomial.Degree.Defs

/-!
# Specification of threshold sharings

A sharing is described with Mathlib's polynomials over the field `ZMod L`, independently of how the code computes.
-/

namespace Verif.Spec

open Polynomial

/-- The field element a share index stands for. -/
def point (i : UInt8) : ZMod L := (i.toNat : ZMod L)

/-- The share is canonical and lies on the polynomial. -/
def OnPoly (f : (ZMod L)[X]) (s : Share) : Prop := s.value.Canonical ∧ s.value.val = f.eval (point s.index)

/-- The Lagrange coefficient at 0 of `i` within `peers`: `∏_{j≠i} x_j / (x_j - x_i)`. -/
noncomputable def lagrange (peers : List UInt8) (i : UInt8) : ZMod L :=
  ((peers.filter (· ≠ i)).map fun j => point j / (point j - point i)).prod

end Verif.Spec
