import Verif.Model.Toprf

/-!
# Model of `/repo/src/dkg.c`

The branches under `#ifdef UNIT_TEST` and the debug output are not modelled.
-/

namespace Verif.Dkg

open Ristretto

variable (G : Type) [Ristretto G]

/-- The loop over `exp` of `polynom` and of `dkg_verify_commitment`, dkg.c:50-53 and 121-124: `m` multiplications of
`tmp` with `z`. -/
def powLoop (z : B32) : (m : ℕ) → (tmp : B32) → B32
  | 0, tmp => tmp
  | m + 1, tmp => powLoop z m (scalarMul tmp z)

/-- The loop over `t` of `polynom`, dkg.c:47-58; the list holds `a[t]`, `a[t+1]`, … -/
def polyLoop (z : B32) : (a : List B32) → (t : ℕ) → (value : B32) → B32
  | [], _, value => value
  | at' :: a, t, value =>
    polyLoop z a (t + 1) (scalarAdd value (scalarMul at' (powLoop z t (B32.ofByte 1))))

/-- `polynom`, dkg.c:36-59. -/
def polynom (j : UInt8) (a : List B32) : C Share := do
  let a0 ← ld a 0
  .ok ⟨j, polyLoop (B32.ofByte j) (a.drop 1) 1 a0⟩

/-- The loop over `k` of `dkg_start` that draws the coefficients and computes the commitments, dkg.c:71-82; `m`
iterations to go. -/
def commitLoop (rnd : ℕ → B32) : (m k : ℕ) → (commitments : List B32) → C (List B32)
  | 0, _, commitments => .ok commitments
  | m + 1, k, commitments => do
    let commitments ← st commitments k (scalarmultBase G (rnd k)).2
    commitLoop rnd m (k + 1) commitments

/-- One iteration of the loop over `j` of `dkg_start`, dkg.c:85-88. -/
def shareStep (a : List B32) (j : UInt8) (shares : List Share) : C (List Share) :=
  if j = 0 then .ub .oob
  else do
    let s ← polynom j a
    st shares (j.toNat - 1) s

/-- `dkg_start`, dkg.c:61-93. `mlock` is the success of `sodium_mlock`, `rnd k` the `k`-th scalar drawn, the last two
arguments are the caller's buffers. -/
def start (mlock : Bool) (n threshold : UInt8) (rnd : ℕ → B32) (commitments : List B32) (shares : List Share) :
    C (Int × List B32 × List Share) :=
  if threshold.toNat = 0 then .ub .vla
  else if !mlock then .ok (-1, commitments, shares)
  else do
    let commitments ← commitLoop G rnd threshold.toNat 0 commitments
    let shares ← forLeU8 (shareStep ((List.range threshold.toNat).map rnd)) n 257 1 shares
    .ok (0, commitments, shares)

/-- The loop over `k` of `dkg_verify_commitment`, dkg.c:118-130, `m` iterations to go; `none` stands for the return
with -1. `scratch` is the indeterminate content of `tmP`. -/
def verifyLoop (scratch j : B32) (commitments : List B32) : (m k : ℕ) → (v1 : B32) → C (Option B32)
  | 0, _, v1 => .ok (some v1)
  | m + 1, k, v1 => do
    let c ← ld commitments k
    let tmp := powLoop j (k - 1) j
    let (ret, tmP) := scalarmult G scratch tmp c
    if ret ≠ 0 then .ok none
    else verifyLoop scratch j commitments m (k + 1) (pointAdd G v1 v1 tmP).2

/-- `dkg_verify_commitment`, dkg.c:95-140. -/
def verifyCommitment (scratch : B32) (threshold self i : UInt8) (commitments : List B32) (share : Share) : C Int :=
  if i = self then .ok 0
  else do
    let v0 := (scalarmultBase G share.value).2
    let c0 ← ld commitments 0
    let r ← verifyLoop G scratch (B32.ofByte self) commitments (threshold.toNat - 1) 1 c0
    match r with
    | none => .ok (-1)
    | some v1 => .ok (if v0 ≠ v1 then 1 else 0)

/-- The loop of `dkg_verify_commitments`, dkg.c:150-159, from `i` on with its early return; the 8-bit counter wraps
around (`fuel` as in `forLeU8`). Results: return value, `fails`, `*fails_len`. -/
def verifyAll (scratch : B32) (n threshold self : UInt8) (commitments : List (List B32)) (shares : List Share) :
    (fuel : ℕ) → (i : UInt8) → (fails : List UInt8) → (len : UInt8) → C (Int × List UInt8 × UInt8)
  | 0, _, _, _ => .ub .diverge
  | fuel + 1, i, fails, len =>
    if i ≤ n then
      if i = self then verifyAll scratch n threshold self commitments shares fuel (i + 1) fails len
      else if i = 0 then .ub .oob
      else do
        let cs ← ld commitments (i.toNat - 1)
        let s ← ld shares (i.toNat - 1)
        let ret ← verifyCommitment G scratch threshold self i cs s
        if ret = -1 then .ok (-1, fails, len)
        else if ret = 0 then verifyAll scratch n threshold self commitments shares fuel (i + 1) fails len
        else
          let fails ← st fails len.toNat i
          verifyAll scratch n threshold self commitments shares fuel (i + 1) fails (len + 1)
    else .ok (if len ≠ 0 then 1 else 0, fails, len)

/-- `dkg_verify_commitments`, dkg.c:142-160. `fails` is the caller's buffer. -/
def verifyCommitments (scratch : B32) (n threshold self : UInt8) (commitments : List (List B32)) (shares : List Share)
    (fails : List UInt8) : C (Int × List UInt8 × UInt8) :=
  verifyAll G scratch n threshold self commitments shares 257 1 fails 0

/-- `dkg_finish`, dkg.c:162-175. `xi` is the caller's share, whose index is not written; `self` is only used for
debug output. -/
def finish (n : UInt8) (shares : List Share) (xi : Share) : C Share := do
  let s ← rd shares 0 n.toNat
  .ok { xi with value := s.foldl (fun acc s => scalarAdd acc s.value) zero32 }

/-- `dkg_reconstruct`, dkg.c:177-193. -/
def reconstruct (responses : List Share) : C B32 :=
  if responses.length = 0 then .ub .vla
  else
    let indexes := responses.map (·.index)
    .ok (responses.foldl (fun acc r => scalarAdd acc (scalarMul r.value (Toprf.coeff r.index indexes))) zero32)

end Verif.Dkg
