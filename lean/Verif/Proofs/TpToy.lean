import Verif.Proofs.TpNext
import Verif.Proofs.Noise
import Verif.Props.Wire

/-!
# Small runs of the trusted party

With a toy signature, two peers and messages that are all accepted every step succeeds. These runs show that the
hypotheses of the theorems can be met.
-/

namespace Verif.Toy

open TpDkg Wire Spec.Wire

/-- A code that is the key itself. -/
@[reducible] def mac : Mac := ⟨fun k _ => k⟩

attribute [local instance] Ristretto.toy Toy.hashes Toy.signing Toy.noise Toy.mac

/-- A message that the toy signature accepts. -/
def msg (len : ℕ) (msgno frm rcp : UInt8) (body : Bytes) : Bytes :=
  let h : Header := ⟨msgno, UInt32.ofNat len, frm, rcp, 5, zero32⟩
  encode (toB64 h.encode) h body

/-- A trusted party before step `step`. -/
def tp (step : ℕ) : TP where
  step := step
  prev := step - 1
  sid := zero32
  n := 2
  t := 1
  sigPk := zero32
  sigSk := toB64 []
  lastTs := [5, 5]
  eps := 10
  sigPks := [zero32, zero32]
  ltPks := [zero32, zero32]
  commitments := [zero32, zero32]
  encShares := List.replicate 1024 0
  complaintsLen := 0
  complaints := [0, 0, 0, 0]
  cheaterLen := 0
  cheaters := List.replicate 3 ⟨0, 0, 0, 0, 0⟩
  cheaterMax := 3
  transcript := []
  ticks := 0

theorem tp_wf (step : ℕ) : WF (tp step) :=
  ⟨Nat.le_refl 2, by show 2 ≤ 128; decide, by show 1 < 2; decide, rfl, rfl, rfl, rfl, by
    have h : (tp step).encShares = List.replicate (2 * 2 * 256) 0 := rfl
    rw [h, List.length_replicate]; rfl, rfl, Nat.le_refl 3,
    Nat.zero_le 3⟩

theorem tp_good {step : ℕ} (h : step ≠ 7) : Good (tp step) := ⟨tp_wf step, fun _ => rfl, fun h' => absurd h' h⟩

/-- With the complaint of peer 1 about peer 2. -/
def tp7 : TP := { tp 7 with complaintsLen := 1, complaints := [258, 0, 0, 0] }

theorem tp7_complaints : Complaints 2 tp7 where
  nodup := by decide
  range := by
    have e : tp7.known = [258] := rfl
    rw [e]
    intro p hp
    simp only [List.mem_cons, List.not_mem_nil, or_false] at hp
    subst hp
    exact ⟨1, 2, by decide, by decide, rfl⟩
  len := by decide

theorem tp7_good : Good tp7 := ⟨{ tp_wf 7 with }, fun h => by revert h; decide, fun _ => ⟨by decide, tp7_complaints⟩⟩

/-- A trusted party for three peers and threshold 2. -/
def tp3 (step : ℕ) : TP :=
  { tp step with
    n := 3
    t := 2
    lastTs := [5, 5, 5]
    sigPks := List.replicate 3 zero32
    ltPks := List.replicate 3 zero32
    commitments := List.replicate 6 zero32
    encShares := List.replicate 2304 0
    complaints := List.replicate 9 0 }

theorem tp3_good {step : ℕ} (h : step ≠ 7) : Good (tp3 step) :=
  ⟨⟨show 2 ≤ 3 by decide, show 3 ≤ 128 by decide, show 2 < 3 by decide, rfl, rfl, rfl, rfl, by
    have h : (tp3 step).encShares = List.replicate (3 * 3 * 256) 0 := rfl
    rw [h, List.length_replicate]; rfl, rfl, Nat.le_refl 3,
    Nat.zero_le 3⟩, fun _ => rfl, fun h' => absurd h' h⟩

/-- Accepted inputs of the steps. -/
def input : ℕ → Bytes
  | 1 => m2 1 ++ m2 2
  | 2 => pairs 159 4 48
  | 3 => pairs 159 5 48
  | 4 => msg 143 6 1 0xff (List.replicate 32 7) ++ msg 143 6 2 0xff (List.replicate 32 8)
  | 5 => pairs 256 8 145
  | 6 => msg 114 9 1 0xff [0, 0, 0] ++ msg 114 9 2 0xff [0, 0, 0]
  | 7 => msg 144 11 2 0 (1 :: List.replicate 32 9)
  | 8 => msg 143 20 1 0 (1 :: List.replicate 31 0) ++ msg 143 20 2 0 (1 :: List.replicate 31 0)
  | 9 => msg 113 22 1 0 [79, 75] ++ msg 113 22 2 0 [79, 75]
  | _ => []
where
  m2 (i : UInt8) : Bytes :=
    let m := msg 175 2 i 0xff (List.replicate 64 i)
    m ++ (toB64 m).toList
  pairs (len : ℕ) (msgno : UInt8) (k : ℕ) : Bytes :=
    msg len msgno 1 1 (List.replicate k 11) ++ msg len msgno 1 2 (List.replicate k 12) ++
    msg len msgno 2 1 (List.replicate k 21) ++ msg len msgno 2 2 (List.replicate k 22)

/-- The result of the call. -/
def run (log : Bool) (c : TP) (input : Bytes) : C (Int × TP × Bytes) :=
  tpNext (ZMod L) (fun _ => 5) log zero32 c input (List.replicate (tpOutputSize c) 0)

/-- The returned value, if the behaviour is defined. -/
def ret (x : C (Int × TP × Bytes)) : Option Int := match x with | .ok p => some p.1 | .ub _ => none

theorem ret_some {x : C (Int × TP × Bytes)} {r : Int} (h : ret x = some r) : ∃ c o, x = .ok (r, c, o) := by
  unfold ret at h
  split at h
  · cases h; exact ⟨_, _, rfl⟩
  · cases h

/-- The behaviour is defined and the result satisfies `p`. -/
def holds (x : C (Int × TP × Bytes)) (p : Int → TP → Bytes → Bool) : Bool :=
  match x with | .ok (r, c, o) => p r c o | .ub _ => false

theorem holds_elim {x : C (Int × TP × Bytes)} {p : Int → TP → Bytes → Bool} (h : holds x p = true) :
    ∃ r c o, x = .ok (r, c, o) ∧ p r c o = true := by
  unfold holds at h
  split at h
  · exact ⟨_, _, _, rfl, h⟩
  · cases h

/-- Every step accepts its input. -/
theorem accepts (step : ℕ) (h : step < 7 ∨ step = 8 ∨ step = 9) : ∃ c o, run true (tp step) (input step) = .ok (0, c, o) := by
  have h' : step ∈ [0, 1, 2, 3, 4, 5, 6, 8, 9] := by
    simp only [List.mem_cons, List.not_mem_nil, or_false]; omega
  have key : ∀ step ∈ [0, 1, 2, 3, 4, 5, 6, 8, 9], ret (run true (tp step) (input step)) = some 0 := by decide +kernel
  exact ret_some (key step h')

end Verif.Toy
