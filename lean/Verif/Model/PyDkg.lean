import Verif.Model.PyTests

/-!
# Model of `test_raw_dkg`, `/repo/python/tests/test.py:112-147`, and of the check at the end of `test_tp_dkg`, lines 268-282

As in `Model/PyTests.lean` the functions of the wrapper are a parameter (`DkgLib`). What the dealers draw is a parameter of
the test. `sodium_mlock` succeeds. Printing is left out.
-/

namespace Verif.PyTests

open Ristretto Verif.Py

/-- The functions of the wrapper that the test uses; the first argument of `start` is what is drawn. -/
structure DkgLib where
  start : (ℕ → B32) → ℤ → ℤ → Run (Bytes × List Bytes)
  verify : ℤ → ℤ → ℤ → Bytes → List Bytes → Run Bytes
  finish : ℤ → List Bytes → ℤ → Run Bytes
  reconstruct : List Bytes → Run Bytes
  thresholdmult : List Bytes → Run Bytes

section
variable [Hashes] (G : Type) [Ristretto G]

/-- The functions of `pyoprf/__init__.py`, lines 378-449; `junk` and `scratch` are contents of memory that is not
initialised. -/
def realDkg (junk : UInt8) (scratch : B32) : DkgLib where
  start rnd n t :=
    checked (fun p => ((p.1.map Vector.toList).flatten, p.2.map pack)) (Py.dkgStart G true rnd n t)
  verify n t self c shares :=
    checked (fun p => p.1.take p.2.toNat) (Py.dkgVerifyCommitments G scratch n t self (.bytes c) (shares.map .bytes))
  finish n shares self := plain pack (Py.dkgFinish n (shares.map .bytes) self)
  reconstruct rs := plain Vector.toList (Py.dkgReconstruct (rs.map .bytes))
  thresholdmult := (real G junk scratch).thresholdmult

end

section
variable (G : Type) [Ristretto G]

/-- `pysodium.crypto_scalarmult_ristretto255_base` -/
def sodiumBase (n : Bytes) : Run Bytes :=
  if n.length ≠ 32 then .raised
  else
    let q := scalarmultBase G (toB32 n)
    if q.1 ≠ 0 then .raised else .ret q.2.toList

/-- `[bytes([i+1])+crypto_scalarmult_ristretto255_base(shares[i][1:]) for i in idxs]` -/
def powers (shares : List Bytes) : List ℕ → Run (List Bytes)
  | [] => .ret []
  | i :: l =>
    match shares[i]? with
    | none => .raised
    | some s => do
      let q ← sodiumBase G (s.drop 1)
      let r ← powers shares l
      .ret ((UInt8.ofNat (i + 1) :: q) :: r)

end

/-- The inner loop of test.py:120-121, `mailboxes[i].append(s)`; `none` is an index that does not exist. -/
def post : List (List Bytes) → List Bytes → Option (List (List Bytes))
  | boxes, [] => some boxes
  | [], _ :: _ => none
  | b :: boxes, s :: l => (post boxes l).map ((b ++ [s]) :: ·)

variable (lib : DkgLib)

/-- The loop over the dealers, test.py:118-122. The result are the commitments and the mailboxes. -/
def deal : List (ℕ → B32) → List Bytes → List (List Bytes) → Run (List Bytes × List (List Bytes))
  | [], commitments, boxes => .ret (commitments, boxes)
  | rnd :: l, commitments, boxes => do
    let d ← lib.start rnd 5 3
    match post boxes d.2 with
    | none => .raised
    | some boxes => deal l (commitments ++ [d.1]) boxes

/-- The loop over the receivers, test.py:126-137, from `i` on. -/
def receive (commitments : Bytes) : List (List Bytes) → ℤ → Run (List Bytes)
  | [], _ => .ret []
  | box :: l, i => do
    let fails ← lib.verify 5 3 (i + 1) commitments box
    if fails.length > 0 then .raised
    else do
      let xi ← lib.finish 5 box (i + 1)
      let r ← receive commitments l (i + 1)
      .ret (xi :: r)

variable (G : Type) [Ristretto G]

/-- The loop over `combinations(range(1,5), 3)`, test.py:141-143. -/
def compare (shares : List Bytes) (v0 : Bytes) : List (List ℕ) → Run Unit
  | [] => .ret ()
  | c :: l => do
    let ps ← powers G shares c
    let v1 ← lib.thresholdmult ps
    assertEqual v0 v1
    compare shares v0 l

/-- The check of the shares, test.py:139-147 and 274-282. -/
def checkShares (shares : List Bytes) : Run Unit := do
  let ps ← powers G shares [0, 1, 2]
  let v0 ← lib.thresholdmult ps
  compare lib G shares v0 [[1, 2, 3], [1, 2, 4], [1, 3, 4], [2, 3, 4]]
  let secret ← lib.reconstruct (shares.take 3)
  let v1 ← sodiumBase G secret
  assertEqual v0 v1

/-- `test_raw_dkg`, test.py:112-147; `rnd i` is what dealer `i` draws. -/
def testRawDkg (rnd : ℕ → ℕ → B32) : Run Unit := do
  let d ← deal lib ((List.range 5).map rnd) [] (List.replicate 5 [])
  let shares ← receive lib d.1.flatten d.2 0
  checkShares lib G shares

end Verif.PyTests
