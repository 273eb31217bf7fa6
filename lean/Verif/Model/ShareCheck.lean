import Verif.Model.Tests

/-!
# The check of the shares in the test of the key generation, `/repo/src/tests/tp-dkg.c:25-77`

`rand()` is a parameter: an arbitrary number of at most `RAND_MAX`, which glibc defines as `2^31 - 1`. `srand(time(NULL))`
(line 32) only chooses among the sequences of `rand` and is not modelled further. The output to `stderr` is left out.
-/

namespace Verif.Tests

variable (G : Type) [Ristretto G]

/-- `RAND_MAX` of glibc. -/
def randMax : ℕ := 2147483647

/-- One pass of the loop of `shuffle`, tests/tp-dkg.c:34-37, with the number `r` from `rand()`. The division is one of
`size_t` because `n - i` is. -/
def shuffleStep (n r : ℕ) (array : List UInt8) (i : ℕ) : C (List UInt8) := do
  let j := i + r / (randMax / (n - i) + 1)
  let t ← ld array j
  let u ← ld array i
  let array ← st array j u
  st array i t

/-- The loop of `shuffle`, tests/tp-dkg.c:33-38: `m` passes are left, the next one is pass `i`. -/
def shuffleLoop (n : ℕ) (rand : ℕ → ℕ) : ℕ → ℕ → List UInt8 → C (List UInt8)
  | 0, _, array => .ok array
  | m + 1, i, array => do
    let array ← shuffleStep n (rand i) array i
    shuffleLoop n rand m (i + 1) array

/-- `shuffle`, tests/tp-dkg.c:30-39. -/
def shuffle (n : ℕ) (rand : ℕ → ℕ) (array : List UInt8) : C (List UInt8) :=
  if n < 2 then .ok array else shuffleLoop n rand (n - 1) 0 array

/-- The loop that fills `responses`, tests/tp-dkg.c:52-54 and 67-69: `m` passes are left, the next one is pass `i`. -/
def respond (shares : List Share) (indexes : List UInt8) : ℕ → ℕ → C (List Share)
  | 0, _ => .ok []
  | m + 1, i => do
    let k ← ld indexes i
    let s ← ld shares k.toNat
    let l ← respond shares indexes m (i + 1)
    .ok (topart G s :: l)

/-- The loop over the shuffles, tests/tp-dkg.c:58-75: `m` passes are left, the next one is pass `k`. -/
def verifyLoop (junk : UInt8) (scratch : B32) (rand : ℕ → ℕ → ℕ) (shares : List Share) (t : ℕ) (v0 : B32) :
    ℕ → ℕ → List UInt8 → C Int
  | 0, _, _ => .ok 0
  | m + 1, k, indexes => do
    let indexes ← shuffle shares.length (rand k) indexes
    let responses ← respond G shares indexes t 0
    let v1 ← Toprf.thresholdmult G junk scratch responses
    if v1.1 ≠ 0 then .ok 1
    else if v0 ≠ v1.2 then .ok 1
    else verifyLoop junk scratch rand shares t v0 m (k + 1) indexes

/-- `verify_shares`, tests/tp-dkg.c:41-77; `n` is the length of `shares`. `rand k` are the numbers that the shuffle of
pass `k` draws. The arrays `responses` and `indexes` have `t` and `n` elements. -/
def verifyShares (junk : UInt8) (scratch : B32) (rand : ℕ → ℕ → ℕ) (shares : List Share) (t : ℕ) : C Int :=
  if t = 0 ∨ shares.length = 0 then .ub .vla
  else do
    let indexes := (List.range shares.length).map UInt8.ofNat
    let responses ← respond G shares indexes t 0
    let v0 ← Toprf.thresholdmult G junk scratch responses
    if v0.1 ≠ 0 then .ok 1
    else verifyLoop G junk scratch rand shares t v0.2 (t - 1) 0 indexes

end Verif.Tests
