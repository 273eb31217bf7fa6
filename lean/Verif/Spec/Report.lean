import Verif.Model.Tp

/-!
# Reading a text about a cheater
-/

namespace Verif.Spec.Report

open TpDkg

/-- Value of a decimal digit. -/
def digit? (c : UInt8) : Option ℕ := if 48 ≤ c.toNat ∧ c.toNat ≤ 57 then some (c.toNat - 48) else none

/-- The numbers in a text, read from left to right; `cur` is the number that is being read. -/
def scan : (cur : Option ℕ) → Bytes → List ℕ
  | cur, [] => cur.toList
  | cur, c :: s =>
    match digit? c with
    | some d => scan (some (cur.getD 0 * 10 + d)) s
    | none => cur.toList ++ scan none s

def numbers (s : Bytes) : List ℕ := scan none s

/-- The numbers that the texts are about: those of the formats, and the arguments without their sign. -/
def shown : Text → List ℕ
  | .notValidated s p o _ => [s.natAbs, p.toNat, o.toNat]
  | .tooMany => [2]
  | .invalidPeer p o | .duplicate p o | .shareMsg p o _ | .keyMsg p o _ | .notComplained p o | .hmac p o | .happy p o
  | .notVerified p o | .invalidParams p o | .falselyAccused p o | .caught p o => [p.toNat, o.toNat]
  | .badCode16 e => [16, e.natAbs]
  | .shareIndex p o i => [p.toNat, o.toNat, i.natAbs]
  | .badCode18 e => [18, e.natAbs]
  | .mismatch p => [p.toNat]
  | .badCode20 e => [20, e.natAbs]
  | .badStep s => [s.natAbs]

/-- A record whose members are C integers. -/
def Ints (c : Cheater) : Prop :=
  c.step.natAbs ≤ 2 ^ 31 ∧ c.error.natAbs ≤ 2 ^ 31 ∧ c.invalidIndex.natAbs ≤ 2 ^ 31

end Verif.Spec.Report
