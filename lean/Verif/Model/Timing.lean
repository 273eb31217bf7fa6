import Verif.Base.Trace
import Verif.Model.Dkg
import Verif.Model.Mpmult

/-!
# The primitives with their traces

The functions of `/repo/src/oprf.c`, `toprf.c`, `dkg.c` and `mpmult.c` once more, with the events of `Base/Trace.lean`.
`Props/Timing.lean` proves that without the events they are the functions of `Model/Oprf.lean`, `Model/Toprf.lean`,
`Model/Dkg.lean` and `Model/Mpmult.lean`. Tests in `#ifdef`ed code and debug output are left out.
-/

namespace Verif.Ct

open Ristretto T

variable (G : Type) [Ristretto G] [Hashes]

/-! ## oprf.c -/

/-- The return value of `sodium_mlock`. -/
def mlockRet (mlock : Bool) : Int := if mlock then 0 else -1

/-- `oprf_Finalize`, oprf.c:70-104. -/
def finalize (mlock : Bool) (x : Bytes) (xLen : UInt16) (N : B32) (out0 : B64) : T (Int × B64) := do
  call .mlock (mlockRet mlock)
  branch (mlockRet mlock = -1) (pure (-1, out0)) do
    let xs ← T.rd x 0 xLen.toNat
    pure (0, Hashes.sha512 (beBytes 2 xLen.toNat ++ xs ++ beBytes 2 32 ++ N.toList ++ Oprf.finalizeDst))

/-- `clen = (left>64)?64:left`, oprf.c:220, 231, 237. -/
def clen (left : ℕ) : T ℕ := branch (left > 64) (pure 64) (pure left)

/-- The loop of `expand_message_xmd`, oprf.c:224-241. `expand_loop`, oprf.c:109-121, has a constant number of rounds. -/
def xmdLoop (b0 : B64) (dstPrime : Bytes) (ell : ℕ) :
    (fuel i : ℕ) → (bi : B64) → (out : Bytes) → (off left : ℕ) → T Bytes
  | 0, _, _, _, _, _ => ub .diverge
  | fuel + 1, i, bi, out, off, left =>
    branch (i ≤ ell) (do
      let bii := Oprf.expandLoop b0 bi (UInt8.ofNat i) dstPrime
      let n ← clen left
      let out ← T.wr out off (bii.toList.take n)
      let off := off + n
      let left := left - n
      let bi := Oprf.expandLoop b0 bii (UInt8.ofNat (i + 1)) dstPrime
      let n ← clen left
      let out ← T.wr out off (bi.toList.take n)
      xmdLoop b0 dstPrime ell fuel (i + 2) bi out (off + n) (left - n))
    (pure out)

/-- `expand_message_xmd`, oprf.c:157-243. -/
def expandMessageXmd (msg : Bytes) (msgLen : UInt8) (dst : Bytes) (dstLen : UInt8) (len : UInt8) (out0 : Bytes) :
    T (Int × Bytes) :=
  let ell := (len.toNat + 64 - 1) / 64
  branch (ell > 255) (pure (-1, out0)) <|
  branch (dstLen = 255) (pure (-1, out0)) do
    let d ← T.rd dst 0 dstLen.toNat
    let dstPrime := d ++ [dstLen]
    let m ← T.rd msg 0 msgLen.toNat
    let msgPrime := List.replicate 128 0 ++ m ++ beBytes 2 len.toNat ++ [0] ++ dstPrime
    touch 0 msgPrime.length
    let b0 := Hashes.sha512 msgPrime
    let bi := Hashes.sha512 (b0.toList ++ [1] ++ dstPrime)
    let left := len.toNat
    let n ← clen left
    let out ← T.wr out0 0 (bi.toList.take n)
    let out ← xmdLoop b0 dstPrime ell 128 2 bi out n (left - n)
    pure (0, out)

/-- `voprf_hash_to_group`, oprf.c:253-273. -/
def hashToGroup (mlock : Bool) (msg : Bytes) (msgLen : UInt8) (p0 : B32) : T (Int × B32) := do
  call .mlock (mlockRet mlock)
  branch (0 ≠ mlockRet mlock) (pure (-1, p0)) do
    let (ret, u) ← expandMessageXmd msg msgLen Oprf.hashToGroupDst (UInt8.ofNat Oprf.hashToGroupDst.length) 64
      (List.replicate 64 0)
    branch (0 ≠ ret) (pure (-1, p0)) (pure (0, fromHashBytes G (Oprf.toB64 u)))

/-- `oprf_Blind`, oprf.c:289-328. -/
def blind (mlock : Bool) (scratch : B32) (x : Bytes) (xLen : UInt8) (rnd r0 blinded0 : B32) : T (Int × B32 × B32) := do
  call .mlock (mlockRet mlock)
  branch (0 ≠ mlockRet mlock) (pure (-1, r0, blinded0)) do
    let (ret, h0) ← hashToGroup G mlock x xLen scratch
    branch (0 ≠ ret) (pure (-1, r0, blinded0)) do
      let q := scalarmult G blinded0 rnd h0
      call .scalarmult q.1
      branch (q.1 ≠ 0) (pure (-1, rnd, q.2)) (pure (0, rnd, q.2))

/-- `oprf_Evaluate`, oprf.c:345-349. -/
def evaluate (k blinded Z0 : B32) : T (Int × B32) := do
  let q := scalarmult G Z0 k blinded
  call .scalarmult q.1
  pure q

/-- `oprf_Unblind`, oprf.c:363-398. -/
def unblind (mlock : Bool) (r Z N0 : B32) : T (Int × B32) := do
  call .valid (isValidPoint G Z)
  branch (isValidPoint G Z ≠ 1) (pure (-1, N0)) do
    call .mlock (mlockRet mlock)
    branch (-1 = mlockRet mlock) (pure (-1, N0)) do
      let ir := scalarInvert r
      call .invert ir.1
      branch (ir.1 ≠ 0) (pure (-1, N0)) do
        let q := scalarmult G N0 ir.2 Z
        call .scalarmult q.1
        branch (q.1 ≠ 0) (pure (-1, q.2)) (pure (0, q.2))

/-! ## toprf.c -/

/-- The loop of `coeff`, toprf.c:67-76; `j` is the position of the head of the list. -/
def coeffLoop (index : UInt8) : (peers : List UInt8) → (j : ℕ) → (acc : B32 × B32) → T (B32 × B32)
  | [], _, acc => branch False (pure acc) (pure acc)
  | p :: peers, j, acc => branch True (do
      touch j 1
      branch (p = index) (coeffLoop index peers (j + 1) acc) <|
        coeffLoop index peers (j + 1)
          (scalarMul acc.1 (B32.ofByte p), scalarMul acc.2 (scalarSub (B32.ofByte p) (B32.ofByte index))))
    (pure acc)

/-- `coeff`, toprf.c:56-79. -/
def coeff (index : UInt8) (peers : List UInt8) : T B32 := do
  let d ← coeffLoop index peers 0 (B32.ofByte 1, B32.ofByte 1)
  pure (scalarMul (scalarInvert d.2).2 d.1)

/-- The loop over `exp`, toprf.c:102-104. -/
def mulPow (x : B32) : (j : ℕ) → (tmp : B32) → T B32
  | 0, tmp => branch False (pure tmp) (pure tmp)
  | j + 1, tmp => branch True (mulPow x j (scalarMul tmp x)) (pure tmp)

/-- The loop over `j` of `toprf_create_shares`, toprf.c:98-106. -/
def shareLoop (x : B32) : (a : List B32) → (j : ℕ) → (value : B32) → T B32
  | [], _, value => branch False (pure value) (pure value)
  | aj :: a, j, value => branch True (do
      touch j 1
      let tmp ← mulPow x j (scalarMul aj x)
      shareLoop x a (j + 1) (scalarAdd value tmp))
    (pure value)

/-- One iteration of the loop over `i`, toprf.c:92-107. -/
def shareStep (secret : B32) (a : List B32) (i : UInt8) (shares : List Share) : T (List Share) :=
  if i = 0 then ub .oob
  else do
    let v ← shareLoop (B32.ofByte i) a 0 secret
    T.st shares (i.toNat - 1) ⟨i, v⟩

/-- `toprf_create_shares`, toprf.c:81-108. The loop that draws the coefficients, toprf.c:89-91, is one event with their number. -/
def createShares (secret : B32) (n threshold : UInt8) (rnd : ℕ → B32) (out : List Share) : T (List Share) :=
  if threshold.toNat ≤ 1 then ub .vla
  else do
    touch 0 (threshold.toNat - 1)
    let a := (List.range (threshold.toNat - 1)).map rnd
    T.forLeU8 (shareStep secret a) n 257 1 out

/-- The `while` loop of `sort_parts`, toprf.c:119-127. -/
def sink : (d : ℕ) → (arr indexes : List UInt8) → T (List UInt8 × List UInt8)
  | 0, arr, indexes => branch False (pure (arr, indexes)) (pure (arr, indexes))
  | d + 1, arr, indexes => branch True (do
      let x ← T.ld arr (d + 1)
      let y ← T.ld arr d
      branch (x < y) (do
        let x1 ← T.ld indexes (d + 1)
        let y1 ← T.ld indexes d
        let arr ← T.st arr (d + 1) y
        let indexes ← T.st indexes (d + 1) y1
        let arr ← T.st arr d x
        let indexes ← T.st indexes d x1
        sink d arr indexes)
        (pure (arr, indexes)))
    (pure (arr, indexes))

/-- The outer loop of `sort_parts`, toprf.c:117-128. -/
def sortLoop : (k c : ℕ) → (arr indexes : List UInt8) → T (List UInt8 × List UInt8)
  | 0, _, arr, indexes => branch False (pure (arr, indexes)) (pure (arr, indexes))
  | k + 1, c, arr, indexes => branch True (do
      let x ← sink c arr indexes
      sortLoop k (c + 1) x.1 x.2)
    (pure (arr, indexes))

/-- `sort_parts`, toprf.c:110-129. -/
def sortParts (parts : List Share) : T (List UInt8) := do
  touch 0 parts.length
  let x ← sortLoop (parts.length - 1) 1 (parts.map (·.index)) ((List.range parts.length).map UInt8.ofNat)
  pure x.2

/-- The loop filling `indexes`, toprf.c:145-147. -/
def fillIndexes (responses : List Share) : (order : List UInt8) → (indexes : List UInt8) → T (List UInt8)
  | [], indexes => branch False (pure indexes) (pure indexes)
  | o :: order, indexes => branch True (do
      let r ← T.ld responses o.toNat
      let indexes ← T.st indexes o.toNat r.index
      fillIndexes responses order indexes)
    (pure indexes)

/-- The loop computing the result, toprf.c:148-156. -/
def multLoop (indexes : List UInt8) (responses : List Share) (scratch : B32) :
    (order : List UInt8) → (result : B32) → T (Int × B32)
  | [], result => branch False (pure (0, result)) (pure (0, result))
  | o :: order, result => branch True (do
      let r ← T.ld responses o.toNat
      let lpoly ← coeff r.index indexes
      let q := scalarmult G scratch lpoly r.value
      call .scalarmult q.1
      branch (q.1 ≠ 0) (pure (1, result)) do
        let s := pointAdd G result result q.2
        call .add s.1
        multLoop indexes responses scratch order s.2)
    (pure (0, result))

/-- `toprf_thresholdmult`, toprf.c:131-158. -/
def thresholdmult (junk : UInt8) (scratch : B32) (responses : List Share) : T (Int × B32) :=
  if responses.length = 0 then ub .vla
  else branch (responses.length > 255) (pure (1, zero32)) do
    let order ← sortParts responses
    let indexes ← fillIndexes responses order (List.replicate responses.length junk)
    multLoop G indexes responses scratch order zero32

/-- `toprf_Evaluate`, toprf.c:160-176. -/
def tevaluate (k : Share) (blinded : B32) (self : UInt8) (indexes : List UInt8) (Z0 : Share) : T (Int × Share) := do
  let lpoly ← coeff self indexes
  let q ← evaluate G (scalarMul k.value lpoly) blinded Z0.value
  branch (q.1 ≠ 0) (pure (1, { Z0 with value := q.2 })) (pure (0, { Z0 with value := q.2 }))

/-- The loop of `toprf_thresholdcombine`, toprf.c:188-190. -/
def combineLoop (responses : List Share) : (order : List UInt8) → (result : B32) → T B32
  | [], result => branch False (pure result) (pure result)
  | o :: order, result => branch True (do
      let r ← T.ld responses o.toNat
      let s := pointAdd G result result r.value
      call .add s.1
      combineLoop responses order s.2)
    (pure result)

/-- `toprf_thresholdcombine`, toprf.c:178-192. -/
def thresholdcombine (responses : List Share) (result0 : B32) : T (Int × B32) :=
  branch (responses.length > 255) (pure (1, result0)) <|
  if responses.length = 0 then ub .vla
  else do
    let order ← sortParts responses
    let result ← combineLoop G responses order zero32
    pure (0, result)

/-- `toprf_3hashtdh`, toprf.c:195-235. -/
def hash3tdh (mlock : Bool) (s1 s2 : B32) (k z : Share) (alpha : B32) (ssid : Bytes) (ssidLen : UInt16)
    (beta0 : Share) : T (Int × Share) := do
  let b ← evaluate G k.value alpha beta0.value
  branch (b.1 ≠ 0) (pure (1, ⟨k.index, b.2⟩)) do
    let ss ← T.rd ssid 0 ssidLen.toNat
    let hash := Hashes.generichash64 (beBytes 2 ssidLen.toNat ++ ss ++ alpha.toList)
    let p ← hashToGroup G mlock hash.toList 64 s1
    branch (0 ≠ p.1) (pure (-1, ⟨k.index, b.2⟩)) do
      let h ← evaluate G z.value p.2 s2
      branch (h.1 ≠ 0) (pure (1, ⟨k.index, b.2⟩)) do
        let s := pointAdd G b.2 b.2 h.2
        call .add s.1
        pure (0, ⟨k.index, s.2⟩)

/-! ## dkg.c -/

/-- The loop over `exp`, dkg.c:50-53 and 121-124. -/
def powLoop (z : B32) : (m : ℕ) → (tmp : B32) → T B32
  | 0, tmp => branch False (pure tmp) (pure tmp)
  | m + 1, tmp => branch True (powLoop z m (scalarMul tmp z)) (pure tmp)

/-- The loop over `t` of `polynom`, dkg.c:47-58. -/
def polyLoop (z : B32) : (a : List B32) → (t : ℕ) → (value : B32) → T B32
  | [], _, value => branch False (pure value) (pure value)
  | at' :: a, t, value => branch True (do
      let tmp ← powLoop z t (B32.ofByte 1)
      touch t 1
      polyLoop z a (t + 1) (scalarAdd value (scalarMul at' tmp)))
    (pure value)

/-- `polynom`, dkg.c:36-59. -/
def polynom (j : UInt8) (a : List B32) : T Share := do
  let a0 ← T.ld a 0
  let v ← polyLoop (B32.ofByte j) (a.drop 1) 1 a0
  pure ⟨j, v⟩

/-- The loop over `k` of `dkg_start`, dkg.c:71-82. -/
def commitLoop (rnd : ℕ → B32) : (m k : ℕ) → (commitments : List B32) → T (List B32)
  | 0, _, commitments => branch False (pure commitments) (pure commitments)
  | m + 1, k, commitments => branch True (do
      let q := scalarmultBase G (rnd k)
      call .base q.1
      let commitments ← T.st commitments k q.2
      commitLoop rnd m (k + 1) commitments)
    (pure commitments)

/-- One iteration of the loop over `j` of `dkg_start`, dkg.c:85-88. -/
def dealStep (a : List B32) (j : UInt8) (shares : List Share) : T (List Share) :=
  if j = 0 then ub .oob
  else do
    let s ← polynom j a
    T.st shares (j.toNat - 1) s

/-- `dkg_start`, dkg.c:61-93. -/
def start (mlock : Bool) (n threshold : UInt8) (rnd : ℕ → B32) (commitments : List B32) (shares : List Share) :
    T (Int × List B32 × List Share) :=
  if threshold.toNat = 0 then ub .vla
  else do
    call .mlock (mlockRet mlock)
    branch (0 ≠ mlockRet mlock) (pure (-1, commitments, shares)) do
      let commitments ← commitLoop G rnd threshold.toNat 0 commitments
      let shares ← T.forLeU8 (dealStep ((List.range threshold.toNat).map rnd)) n 257 1 shares
      pure (0, commitments, shares)

/-- The loop over `k` of `dkg_verify_commitment`, dkg.c:118-130. -/
def verifyLoop (scratch j : B32) (commitments : List B32) : (m k : ℕ) → (v1 : B32) → T (Option B32)
  | 0, _, v1 => branch False (pure none) (pure (some v1))
  | m + 1, k, v1 => branch True (do
      let c ← T.ld commitments k
      let tmp ← powLoop j (k - 1) j
      let q := scalarmult G scratch tmp c
      call .scalarmult q.1
      branch (q.1 ≠ 0) (pure none) do
        let s := pointAdd G v1 v1 q.2
        call .add s.1
        verifyLoop scratch j commitments m (k + 1) s.2)
    (pure none)

/-- `sodium_memcmp`, dkg.c:133. -/
def memcmpRet (a b : B32) : Int := if a = b then 0 else -1

/-- `dkg_verify_commitment`, dkg.c:95-140. -/
def verifyCommitment (scratch : B32) (threshold self i : UInt8) (commitments : List B32) (share : Share) : T Int :=
  branch (i = self) (pure 0) do
    let v0 := scalarmultBase G share.value
    call .base v0.1
    let c0 ← T.ld commitments 0
    let r ← verifyLoop G scratch (B32.ofByte self) commitments (threshold.toNat - 1) 1 c0
    match r with
    | none => pure (-1)
    | some v1 => do
      call .memcmp (memcmpRet v0.2 v1)
      branch (memcmpRet v0.2 v1 ≠ 0) (pure 1) (pure 0)

/-- The loop of `dkg_verify_commitments`, dkg.c:150-159. -/
def verifyAll (scratch : B32) (n threshold self : UInt8) (commitments : List (List B32)) (shares : List Share) :
    (fuel : ℕ) → (i : UInt8) → (fails : List UInt8) → (len : UInt8) → T (Int × List UInt8 × UInt8)
  | 0, _, _, _ => ub .diverge
  | fuel + 1, i, fails, len =>
    branch (i ≤ n)
      (branch (i = self) (verifyAll scratch n threshold self commitments shares fuel (i + 1) fails len) <|
        if i = 0 then ub .oob
        else do
          let cs ← T.ld commitments (i.toNat - 1)
          let s ← T.ld shares (i.toNat - 1)
          let ret ← verifyCommitment G scratch threshold self i cs s
          branch (ret = -1) (pure (-1, fails, len)) <|
            branch (ret = 0) (verifyAll scratch n threshold self commitments shares fuel (i + 1) fails len) do
              let fails ← T.st fails len.toNat i
              verifyAll scratch n threshold self commitments shares fuel (i + 1) fails (len + 1))
      (branch (len ≠ 0) (pure (1, fails, len)) (pure (0, fails, len)))

/-- `dkg_verify_commitments`, dkg.c:142-160. -/
def verifyCommitments (scratch : B32) (n threshold self : UInt8) (commitments : List (List B32)) (shares : List Share)
    (fails : List UInt8) : T (Int × List UInt8 × UInt8) :=
  verifyAll G scratch n threshold self commitments shares 257 1 fails 0

/-- The loop of `dkg_finish`, dkg.c:167-173, with its test of the index. -/
def finishLoop (self : UInt8) : (shares : List Share) → (i : ℕ) → (value : B32) → T B32
  | [], _, value => branch False (pure value) (pure value)
  | s :: shares, i, value => branch True (do
      touch i 1
      branch (self ≠ s.index) (pure ()) (pure ())
      finishLoop self shares (i + 1) (scalarAdd value s.value))
    (pure value)

/-- `dkg_finish`, dkg.c:162-175. -/
def finish (n : UInt8) (shares : List Share) (self : UInt8) (xi : Share) : T Share := do
  let s ← T.rd shares 0 n.toNat
  let v ← finishLoop self s 0 zero32
  pure { xi with value := v }

/-- The second loop of `dkg_reconstruct`, dkg.c:188-192. -/
def reconLoop (indexes : List UInt8) : (responses : List Share) → (i : ℕ) → (result : B32) → T B32
  | [], _, result => branch False (pure result) (pure result)
  | r :: responses, i, result => branch True (do
      touch i 1
      let lpoly ← coeff r.index indexes
      reconLoop indexes responses (i + 1) (scalarAdd result (scalarMul r.value lpoly)))
    (pure result)

/-- `dkg_reconstruct`, dkg.c:177-193. -/
def reconstruct (responses : List Share) : T B32 :=
  if responses.length = 0 then ub .vla
  else do
    touch 0 responses.length
    reconLoop (responses.map (·.index)) responses 0 zero32

/-! ## mpmult.c -/

/-- `toprf_mpc_mul_start`, mpmult.c:155-173. -/
def mulStart (a b : Share) (peers threshold : UInt8) (rnd : ℕ → B32) (out : List Share) : T (Int × List Share) :=
  branch (a.index ≠ b.index) (pure (1, out)) <|
  branch (peers < threshold) (pure (1, out)) <|
  branch (threshold = 0) (pure (1, out)) do
    let shares ← createShares (scalarMul a.value b.value) peers threshold rnd out
    pure (0, shares)

/-- The loop of `toprf_mpc_mul_finish`, mpmult.c:193-197, over pairs of a share and its element of the matrix. -/
def mulLoop : (l : List (B32 × B32)) → (i : ℕ) → (value : B32) → T B32
  | [], _, value => branch False (pure value) (pure value)
  | p :: l, i, value => branch True (do
      touch i 1
      mulLoop l (i + 1) (scalarAdd value (scalarMul p.1 p.2)))
    (pure value)

/-- `toprf_mpc_mul_finish`, mpmult.c:175-200. `invertedVDMmatrix` compares in variable time; it is taken to leak all of its
input. -/
def mulFinish (scratch : B32) (received : List (UInt8 × Share)) (peer : UInt8) : T Share :=
  if h : received.length = 0 then ub .vla
  else
    haveI : NeZero received.length := ⟨h⟩
    do
      opened (received.map (·.1))
      let inverted := Mpmult.invertedVDM (fun i : Fin received.length => (received.get i).1) (fun _ _ => scratch)
      let v ← mulLoop ((List.finRange received.length).map fun i => ((received.get i).2.value, inverted 0 i)) 0 zero32
      pure ⟨peer, v⟩

end Verif.Ct
