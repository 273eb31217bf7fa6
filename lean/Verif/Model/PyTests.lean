import Verif.Model.Python

/-!
# Model of the tests of the Python wrapper, `/repo/python/tests/test.py` and `/repo/python/examples/3hashtdh.py`

A test is a program over the functions of the wrapper, which are a parameter (`Lib`); `real` are the functions of
`/repo/python/pyoprf/__init__.py`. What libsodium draws is a parameter of the test. Left out:
printing. `test_raw_dkg` and `test_tp_dkg` are in `Model/PyDkg.lean` and `Model/PyTpDkg.lean`. `sodium_mlock` succeeds.
-/

namespace Verif.PyTests

open Ristretto Verif.Py

/-- How a piece of Python ends: with a value, with an exception, with an assertion that does not hold, or undefined because
of a C function. -/
inductive Run (α : Type)
  | ret (a : α)
  | raised
  | failed
  | undef

def Run.bind {α β : Type} : Run α → (α → Run β) → Run β
  | .ret a, k => k a
  | .raised, _ => .raised
  | .failed, _ => .failed
  | .undef, _ => .undef

instance : Monad Run where
  pure := .ret
  bind := Run.bind

/-- `self.assertEqual(a, b)` -/
def assertEqual {α : Type} [DecidableEq α] (a b : α) : Run Unit := if a = b then .ret () else .failed

/-- The functions of the wrapper that the tests use; the first argument of `keygen`, `blind` and `createShares` is
what is drawn. -/
structure Lib where
  keygen : B32 → Run Bytes
  blind : B32 → Bytes → Run (Bytes × Bytes)
  evaluate : Bytes → Bytes → Run Bytes
  unblind : Bytes → Bytes → Run Bytes
  finalize : Bytes → Bytes → Run Bytes
  createShares : (ℕ → B32) → Bytes → ℤ → ℤ → Run (List Bytes)
  thresholdmult : List Bytes → Run Bytes
  thresholdEvaluate : Bytes → Bytes → ℤ → List ℤ → Run Bytes
  thresholdCombine : List Bytes → Run Bytes
  hash3tdh : Bytes → Bytes → Bytes → Bytes → Run Bytes

/-! ## What the wrapper makes of the results -/

/-- `__check`, __init__.py:45-47, and the results. -/
def checked {α β : Type} (f : α → β) : Res (Int × α) → Run β
  | .raised => .raised
  | .reached (.ok (r, a)) => if r ≠ 0 then .raised else .ret (f a)
  | .reached (.ub _) => .undef

/-- The results of a function of type `void` or whose return value is always 0. -/
def plain {α β : Type} (f : α → β) : Res α → Run β
  | .raised => .raised
  | .reached (.ok a) => .ret (f a)
  | .reached (.ub _) => .undef

/-- A share as 33 bytes. -/
def pack (s : Share) : Bytes := s.index :: s.value.toList

variable [Hashes] (G : Type) [Ristretto G]

/-- The functions of `pyoprf/__init__.py`; `junk` and `scratch` are contents of memory that is not initialised. -/
def real (junk : UInt8) (scratch : B32) : Lib where
  keygen k := .ret k.toList
  blind rnd x := checked (fun p => (p.1.toList, p.2.toList)) (Py.blind G true scratch rnd (.bytes x))
  evaluate k b := checked Vector.toList (Py.evaluate G (.bytes k) (.bytes b))
  unblind r Z := checked Vector.toList (Py.unblind G true (.bytes r) (.bytes Z))
  finalize x N := checked Vector.toList (Py.finalize true (.bytes x) (.bytes N))
  createShares rnd s n t := plain (List.map pack) (Py.createShares rnd (.bytes s) n t)
  thresholdmult rs := checked Vector.toList (Py.thresholdmult G junk scratch (rs.map .bytes))
  thresholdEvaluate k b self ixs := checked pack (Py.thresholdEvaluate G (.bytes k) (.bytes b) self ixs)
  thresholdCombine rs := checked Vector.toList (Py.thresholdCombine G (rs.map .bytes))
  hash3tdh k z a s := checked pack (Py.hash3tdh G true scratch scratch (.bytes k) (.bytes z) (.bytes a) (.bytes s))

/-! ## What the tests call of pysodium -/

/-- `pysodium.crypto_scalarmult_ristretto255` -/
def sodiumMult (n p : Bytes) : Run Bytes :=
  let q := scalarmult G zero32 (toB32 n) (toB32 p)
  if q.1 ≠ 0 then .raised else .ret q.2.toList

/-- `pysodium.crypto_core_ristretto255_add` -/
def sodiumAdd (p q : Bytes) : Run Bytes :=
  let r := pointAdd G zero32 (toB32 p) (toB32 q)
  if r.1 ≠ 0 then .raised else .ret r.2.toList

/-! ## The tests -/

variable (lib : Lib)

/-- `b"test"` -/
def input : Bytes := [116, 101, 115, 116]

/-- One run of the OPRF with a key, test.py:11, 15-19 and 21-24. -/
def oprfRun (x k : Bytes) (rnd : B32) : Run Bytes := do
  let b ← lib.blind rnd x
  let beta ← lib.evaluate k b.2
  let N ← lib.unblind b.1 beta
  lib.finalize x N

/-- `test_cfrg_irtf`, test.py:8-25. The key is generated after the first call of `blind`. -/
def testCfrg (r1 k r2 : B32) : Run Unit := do
  let b ← lib.blind r1 input
  let k ← lib.keygen k
  let beta ← lib.evaluate k b.2
  let N ← lib.unblind b.1 beta
  let y ← lib.finalize input N
  let y2 ← oprfRun lib input k r2
  assertEqual y y2

/-- `test_cfrg_irtf_testvec1` and `test_cfrg_irtf_testvec2`, test.py:27-48, with the literals as parameters. -/
def testVector (x k out : Bytes) (r : B32) : Run Unit := do
  let y ← oprfRun lib x k r
  assertEqual y out

/-- `test_hashDH_update`, test.py:50-75. -/
def testUpdate (r1 k delta r2 : B32) : Run Unit := do
  let b ← lib.blind r1 input
  let k ← lib.keygen k
  let beta ← lib.evaluate k b.2
  let N ← lib.unblind b.1 beta
  let k2 := (scalarMul (toB32 k) delta).toList
  let N2 ← sodiumMult G delta.toList N
  let b ← lib.blind r2 input
  let beta ← lib.evaluate k2 b.2
  let N2' ← lib.unblind b.1 beta
  assertEqual N2 N2'

/-- `tuple(s[:1]+pyoprf.evaluate(s[1:], alpha) for s in shares)` -/
def partials (alpha : Bytes) : List Bytes → Run (List Bytes)
  | [] => .ret []
  | s :: l => do
    let b ← lib.evaluate (s.drop 1) alpha
    let r ← partials alpha l
    .ret ((s.take 1 ++ b) :: r)

/-- `test_toprf_sss`, test.py:78-93. -/
def testSss (k : B32) (a : ℕ → B32) (r : B32) : Run Unit := do
  let k2 ← lib.keygen k
  let shares ← lib.createShares a k2 5 3
  let b ← lib.blind r input
  let betas ← partials lib b.2 shares
  let beta ← lib.thresholdmult betas
  let Nt ← lib.unblind b.1 beta
  let beta ← lib.evaluate k2 b.2
  let N2 ← lib.unblind b.1 beta
  assertEqual N2 Nt

/-- `tuple(pyoprf.threshold_evaluate(shares[i-1], alpha, i, indexes) for i in indexes)` -/
def weighted (shares : List Bytes) (alpha : Bytes) (indexes : List ℤ) : List ℤ → Run (List Bytes)
  | [] => .ret []
  | i :: l => do
    let b ← lib.thresholdEvaluate (shares.getD (i - 1).toNat []) alpha i indexes
    let r ← weighted shares alpha indexes l
    .ret (b :: r)

/-- `test_toprf_tcombine`, test.py:95-110. -/
def testTcombine (k : B32) (a : ℕ → B32) (r : B32) : Run Unit := do
  let k2 ← lib.keygen k
  let shares ← lib.createShares a k2 5 3
  let b ← lib.blind r input
  let betas ← weighted lib shares b.2 [4, 2, 1] [4, 2, 1]
  let _ ← lib.thresholdCombine betas
  let beta ← lib.evaluate k2 b.2
  let Nt ← lib.unblind b.1 beta
  let Nt2 ← lib.unblind b.1 beta
  assertEqual Nt Nt2

/-- One element of `betas`, test.py:163-168. -/
def explicitPart (alpha ssid k z : Bytes) : Run Bytes := do
  let h2 ← lib.evaluate (z.drop 1) (fromHashBytes G (Hashes.generichash64 (ssid ++ alpha))).toList
  let beta ← lib.evaluate (k.drop 1) alpha
  let s ← sodiumAdd G beta h2
  .ret (k.take 1 ++ s)

/-- A loop over `zip(shares, zero_shares)`. -/
def zipRun (f : Bytes → Bytes → Run Bytes) : List Bytes → List Bytes → Run (List Bytes)
  | k :: l, z :: m => do
    let b ← f k z
    let r ← zipRun f l m
    .ret (b :: r)
  | _, _ => .ret []

/-- `for peers in combinations(betas, 3)`, test.py:173-176 and 195-198: the loop variable is not used. -/
def tenTimes (r Nt0 : Bytes) (betas : List Bytes) : ℕ → Run Unit
  | 0 => .ret ()
  | m + 1 => do
    let beta ← lib.thresholdmult (betas.take 3)
    let Nt1 ← lib.unblind r beta
    assertEqual Nt0 Nt1
    tenTimes r Nt0 betas m

/-- `test_explicit_3hashtdh` with `explicitPart` and `test_native_3hashtdh` with `_3hashtdh`, test.py:149-198. -/
def test3hash (f : Bytes → Bytes → Bytes → Bytes → Run Bytes) (k : B32) (a z : ℕ → B32) (r ssid : B32) : Run Unit := do
  let k2 ← lib.keygen k
  let shares ← lib.createShares a k2 5 3
  let zeros ← lib.createShares z zero32.toList 5 3
  let b ← lib.blind r input
  let betas ← zipRun (f b.2 ssid.toList) shares zeros
  let beta ← lib.evaluate k2 b.2
  let Nt0 ← lib.unblind b.1 beta
  tenTimes lib b.1 Nt0 betas 10

/-- `test_explicit_3hashtdh`, test.py:149-176. -/
def testExplicit (k : B32) (a z : ℕ → B32) (r ssid : B32) : Run Unit := test3hash lib (explicitPart G lib) k a z r ssid

/-- `test_native_3hashtdh`, test.py:178-198. -/
def testNative (k : B32) (a z : ℕ → B32) (r ssid : B32) : Run Unit :=
  test3hash lib (fun alpha ssid k z => lib.hash3tdh k z alpha ssid) k a z r ssid

end Verif.PyTests
