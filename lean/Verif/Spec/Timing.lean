import Verif.Base.Trace
import Verif.Model.Toprf

/-!
# Independence of traces from secrets
-/

namespace Verif.Spec.Timing

open Ct

/-- The traces are the same up to a call of libsodium that returns different values. -/
inductive Split : List Ev → List Ev → Prop
  | mk (p : List Ev) (f : Fn) (r r' : Int) (s s' : List Ev) (h : r ≠ r') : Split (p ++ .call f r :: s) (p ++ .call f r' :: s')

/-- The traces are the same, or the first difference is the return value of a call of libsodium. -/
def Agree (e e' : List Ev) : Prop := e = e' ∨ Split e e'

/-- All calls of libsodium in this trace succeed. -/
structure Clean (e : List Ev) : Prop where
  ret : ∀ f r, .call f r ∈ e → r = if f = .valid then 1 else 0

/-- Shares with the same indexes. -/
def SameIndexes (l l' : List Share) : Prop := l.map (·.index) = l'.map (·.index)

end Verif.Spec.Timing
