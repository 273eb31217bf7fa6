import Verif.Model.Oprf

/-!
# Model of `/repo/src/tests/test.c` and of `/repo/src/tests/testvecs2h.py`

The program `test.c` is compiled with `CFRG_TEST_VEC`, so that `oprf_Blind` takes the scalar from the header instead of drawing
it (oprf.c:307-311). Output is left out. The header `cfrg_oprf_test_vectors.h` is a parameter (`Header`) of `main`;
`toC` is the text that `testvecs2h.py` writes for one array.
-/

namespace Verif.Vectors

open Ristretto

/-- The arrays of the header for one test case, testvecs2h.py:87-108. -/
structure Header where
  input : Bytes
  blind : Bytes
  blinded : Bytes
  evaluation : Bytes
  output : Bytes
  sks : Bytes

/-- `memcmp(a, b, n) != 0` -/
def differ (a b : Bytes) (n : ℕ) : C Bool := do
  let x ← rd a 0 n
  let y ← rd b 0 n
  .ok (x != y)

variable [Hashes] (G : Type) [Ristretto G]

/-- `main`, test.c:10-60. `mlock` tells whether memory can be locked; the local arrays have the contents `r0`, `b0`,
`Z0`, `N0` and `y0`, and `scratch` is the local array of `oprf_Blind`. Lengths are converted to the types of the parameters. -/
def main (mlock : Bool) (scratch r0 b0 Z0 N0 : B32) (y0 : B64) (h : Header) : C Int := do
  let rnd ← rd h.blind 0 32
  let (res, r, blinded) ← Oprf.blind G mlock scratch h.input (UInt8.ofNat h.input.length) (toB32 rnd) r0 b0
  if res ≠ 0 then .ok 1
  else do
    let d ← differ blinded.toList h.blinded h.blinded.length
    if d then .ok 1
    else do
      let sk ← rd h.sks 0 32
      let (res, Z) := Oprf.evaluate G (toB32 sk) blinded Z0
      if res ≠ 0 then .ok 1
      else do
        let d ← differ Z.toList h.evaluation h.evaluation.length
        if d then .ok 1
        else
          let (res, N) := Oprf.unblind G mlock r Z N0
          if res ≠ 0 then .ok 1
          else do
            let (res, y) ← Oprf.finalize mlock h.input (UInt16.ofNat h.input.length) N y0
            if res ≠ 0 then .ok 1
            else do
              let d ← differ y.toList h.output h.output.length
              if d then .ok 1 else .ok 0

/-! ## The header -/

/-- `split_by_n(v, n)` as lists without the fill values, testvecs2h.py:6-7. -/
def splitByN {α : Type} (n : ℕ) (v : List α) : List (List α) :=
  if h : v = [] ∨ n = 0 then [] else v.take n :: splitByN n (v.drop n)
termination_by v.length
decreasing_by
  rw [not_or] at h
  have := List.length_pos_iff.2 h.1
  rw [List.length_drop]
  omega

/-- `sep.join(l)` -/
def joined (sep : List Char) : List (List Char) → List Char
  | [] => []
  | [a] => a
  | a :: b :: l => a ++ sep ++ joined sep (b :: l)

/-- The declared number of elements and the text between the braces that are written for the string `v`,
testvecs2h.py:45-52 and 71-77. -/
def toC (v : List Char) : ℕ × List Char :=
  (v.length / 2, ['\n', ' ', ' ', ' '] ++ joined [',', '\n', ' ', ' ', ' ']
    ((splitByN 8 ((splitByN 2 v).map fun x => ['0', 'x'] ++ x)).map (joined [',', ' '])))

end Verif.Vectors
