import Verif.Model.Oprf

/-!
# Model of `/repo/src/toprf.c`

Arrays and their length argument are one list; the length arguments of the C functions are the list lengths.
-/

namespace Verif

/-- `TOPRF_Share` and `TOPRF_Part`, toprf.c:46-54: an index byte followed by 32 bytes. -/
structure Share where
  index : UInt8
  value : B32
  deriving DecidableEq

namespace Toprf

open Ristretto

variable (G : Type) [Ristretto G] [Hashes]

/-- Loop body of `coeff`, toprf.c:67-76: the pair is (`divident`, `divisor`). -/
def coeffStep (index : UInt8) (acc : B32 × B32) (p : UInt8) : B32 × B32 :=
  if p = index then acc
  else (scalarMul acc.1 (B32.ofByte p), scalarMul acc.2 (scalarSub (B32.ofByte p) (B32.ofByte index)))

/-- `coeff`, toprf.c:56-79. -/
def coeff (index : UInt8) (peers : List UInt8) : B32 :=
  let d := peers.foldl (coeffStep index) (B32.ofByte 1, B32.ofByte 1)
  scalarMul (scalarInvert d.2).2 d.1

/-- The loop over `exp` that multiplies with `x` another `j` times, toprf.c:102-104. -/
def mulPow (x : B32) : (j : ℕ) → (tmp : B32) → B32
  | 0, tmp => tmp
  | j + 1, tmp => mulPow x j (scalarMul tmp x)

/-- The loop over `j` of `toprf_create_shares`, toprf.c:98-106; `j` is the position of the head of the list. -/
def shareLoop (x : B32) : (a : List B32) → (j : ℕ) → (value : B32) → B32
  | [], _, value => value
  | aj :: a, j, value => shareLoop x a (j + 1) (scalarAdd value (mulPow x j (scalarMul aj x)))

/-- One iteration of the loop over `i`, toprf.c:92-107: `shares[i-1]` is `shares[-1]` when the counter has wrapped. -/
def shareStep (secret : B32) (a : List B32) (i : UInt8) (shares : List Share) : C (List Share) :=
  if i = 0 then .ub .oob
  else st shares (i.toNat - 1) ⟨i, shareLoop (B32.ofByte i) a 0 secret⟩

/-- `toprf_create_shares`, toprf.c:81-108. `rnd i` is the `i`-th scalar drawn by libsodium, `out` the caller's buffer
of shares. The array `a[threshold-1]` must have a positive size. -/
def createShares (secret : B32) (n threshold : UInt8) (rnd : ℕ → B32) (out : List Share) : C (List Share) :=
  if threshold.toNat ≤ 1 then .ub .vla
  else
    let a := (List.range (threshold.toNat - 1)).map rnd
    forLeU8 (shareStep secret a) n 257 1 out

/-- The `while` loop of `sort_parts`, toprf.c:119-127: position `d` sinks to its place; the pair is
(`arr`, `indexes`). -/
def sink : (d : ℕ) → (arr indexes : List UInt8) → C (List UInt8 × List UInt8)
  | 0, arr, indexes => .ok (arr, indexes)
  | d + 1, arr, indexes => do
    let x ← ld arr (d + 1)
    let y ← ld arr d
    if x < y then
      let x1 ← ld indexes (d + 1)
      let y1 ← ld indexes d
      let arr ← st arr (d + 1) y
      let indexes ← st indexes (d + 1) y1
      let arr ← st arr d x
      let indexes ← st indexes d x1
      sink d arr indexes
    else .ok (arr, indexes)

/-- The outer loop of `sort_parts`, toprf.c:117-128, starting at `c` with `k` iterations to go. The 8-bit counter
cannot wrap because `n ≤ 255`. -/
def sortLoop : (k c : ℕ) → (arr indexes : List UInt8) → C (List UInt8 × List UInt8)
  | 0, _, arr, indexes => .ok (arr, indexes)
  | k + 1, c, arr, indexes => do
    let (arr, indexes) ← sink c arr indexes
    sortLoop k (c + 1) arr indexes

/-- `sort_parts`, toprf.c:110-129, for `1 ≤ n ≤ 255` parts. -/
def sortParts (parts : List Share) : C (List UInt8) := do
  let arr := parts.map (·.index)
  let indexes := (List.range parts.length).map UInt8.ofNat
  let (_, indexes) ← sortLoop (parts.length - 1) 1 arr indexes
  .ok indexes

/-- The loop filling `indexes`, toprf.c:145-147. -/
def fillIndexes (responses : List Share) : (order : List UInt8) → (indexes : List UInt8) → C (List UInt8)
  | [], indexes => .ok indexes
  | o :: order, indexes => do
    let r ← ld responses o.toNat
    let indexes ← st indexes o.toNat r.index
    fillIndexes responses order indexes

/-- The loop computing the result, toprf.c:148-156. -/
def multLoop (indexes : List UInt8) (responses : List Share) (scratch : B32) :
    (order : List UInt8) → (result : B32) → C (Int × B32)
  | [], result => .ok (0, result)
  | o :: order, result => do
    let r ← ld responses o.toNat
    let lpoly := coeff r.index indexes
    let (ret, gki) := scalarmult G scratch lpoly r.value
    if ret ≠ 0 then .ok (1, result)
    else multLoop indexes responses scratch order (pointAdd G result result gki).2

/-- `toprf_thresholdmult`, toprf.c:131-158. `junk` and `scratch` are the indeterminate contents of the local arrays
`indexes` and `gki`. -/
def thresholdmult (junk : UInt8) (scratch : B32) (responses : List Share) : C (Int × B32) :=
  if responses.length = 0 then .ub .vla
  else if responses.length > 255 then .ok (1, zero32)
  else do
    let order ← sortParts responses
    let indexes ← fillIndexes responses order (List.replicate responses.length junk)
    multLoop G indexes responses scratch order zero32

/-- `toprf_Evaluate`, toprf.c:160-176. `Z0` is the previous content of `Z`; its index byte is not written. -/
def evaluate (k : Share) (blinded : B32) (self : UInt8) (indexes : List UInt8) (Z0 : Share) : Int × Share :=
  let lpoly := coeff self indexes
  let kl := scalarMul k.value lpoly
  let (ret, v) := Oprf.evaluate G kl blinded Z0.value
  (if ret ≠ 0 then 1 else 0, { Z0 with value := v })

/-- The loop of `toprf_thresholdcombine`, toprf.c:188-190. -/
def combineLoop (responses : List Share) : (order : List UInt8) → (result : B32) → C B32
  | [], result => .ok result
  | o :: order, result => do
    let r ← ld responses o.toNat
    combineLoop responses order (pointAdd G result result r.value).2

/-- `toprf_thresholdcombine`, toprf.c:178-192. -/
def thresholdcombine (responses : List Share) (result0 : B32) : C (Int × B32) :=
  if responses.length > 255 then .ok (1, result0)
  else if responses.length = 0 then .ub .vla
  else do
    let order ← sortParts responses
    let result ← combineLoop G responses order zero32
    .ok (0, result)

/-- `toprf_3hashtdh`, toprf.c:195-235. `beta0` is the previous content of `beta`, `s1` and `s2` of the local points.
`mlock` is the success of the memory locking inside `voprf_hash_to_group`. -/
def hash3tdh (mlock : Bool) (s1 s2 : B32) (k z : Share) (alpha : B32) (ssid : Bytes) (ssidLen : UInt16)
    (beta0 : Share) : C (Int × Share) := do
  let (ret, bv) := Oprf.evaluate G k.value alpha beta0.value
  if ret ≠ 0 then .ok (1, ⟨k.index, bv⟩)
  else
    let ss ← rd ssid 0 ssidLen.toNat
    let hash := Hashes.generichash64 (beBytes 2 ssidLen.toNat ++ ss ++ alpha.toList)
    let (ret, point) ← Oprf.hashToGroup G mlock hash.toList 64 s1
    if ret ≠ 0 then .ok (-1, ⟨k.index, bv⟩)
    else
      let (ret, h2) := Oprf.evaluate G z.value point s2
      if ret ≠ 0 then .ok (1, ⟨k.index, bv⟩)
      else .ok (0, ⟨k.index, (pointAdd G bv bv h2).2⟩)

end Toprf

end Verif
