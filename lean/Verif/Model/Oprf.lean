import Verif.Sodium.Group

/-!
# Model of `/repo/src/oprf.c`

Pointers are lists whose length is the extent of the object behind the pointer; lengths are the C integer types.
`sodium_mlock` may fail, which is the parameter `mlock`. Scratch memory that is wiped before return is not modelled.
-/

namespace Verif

/-- SHA-512 and BLAKE2b (`crypto_hash_sha512*`, `crypto_generichash*`) as functions of the whole input; the
streaming interface hashes the concatenation of its updates. No property of the functions is assumed. -/
class Hashes where
  sha512 : Bytes → B64
  generichash64 : Bytes → B64
  generichash32 : Bytes → B32

namespace Oprf

open Ristretto

variable (G : Type) [Ristretto G] [Hashes]

/-- `oprf_KeyGen`, oprf.c:46-52: the key is the random scalar drawn by libsodium. -/
def keyGen (rnd : B32) : B32 := rnd

/-- The string literal "Finalize", oprf.c:94. -/
def finalizeDst : Bytes := [70, 105, 110, 97, 108, 105, 122, 101]

/-- `oprf_Finalize`, oprf.c:70-104. `out0` is the previous content of `rwdU`. -/
def finalize (mlock : Bool) (x : Bytes) (xLen : UInt16) (N : B32) (out0 : B64) : C (Int × B64) :=
  if !mlock then .ok (-1, out0)
  else do
    let xs ← rd x 0 xLen.toNat
    .ok (0, Hashes.sha512 (beBytes 2 xLen.toNat ++ xs ++ beBytes 2 32 ++ N.toList ++ finalizeDst))

/-- `expand_loop`, oprf.c:109-121. -/
def expandLoop (b0 bi : B64) (i : UInt8) (dstPrime : Bytes) : B64 :=
  Hashes.sha512 ((Vector.zipWith (· ^^^ ·) b0 bi).toList ++ [i] ++ dstPrime)

/-- `memcpy(out, b, clen)` with `clen = (left>64)?64:left`, oprf.c:220-221, 231-232, 237-238. -/
def putBlock (out : Bytes) (off left : ℕ) (b : B64) : C Bytes :=
  wr out off (b.toList.take (if left > 64 then 64 else left))

/-- The loop of `expand_message_xmd`, oprf.c:224-241: two blocks per iteration. `off` is `out - uniform_bytes`.
The 8-bit counter `i` cannot wrap because `ell ≤ 4`; it is a natural number here. -/
def xmdLoop (b0 : B64) (dstPrime : Bytes) (ell : ℕ) :
    (fuel i : ℕ) → (bi : B64) → (out : Bytes) → (off left : ℕ) → C Bytes
  | 0, _, _, _, _, _ => .ub .diverge
  | fuel + 1, i, bi, out, off, left =>
    if i ≤ ell then do
      let bii := expandLoop b0 bi (UInt8.ofNat i) dstPrime
      let out ← putBlock out off left bii
      let clen := if left > 64 then 64 else left
      let off := off + clen
      let left := left - clen
      let bi := expandLoop b0 bii (UInt8.ofNat (i + 1)) dstPrime
      let out ← putBlock out off left bi
      let clen := if left > 64 then 64 else left
      xmdLoop b0 dstPrime ell fuel (i + 2) bi out (off + clen) (left - clen)
    else .ok out

/-- `expand_message_xmd`, oprf.c:157-243. `out0` is the caller's buffer `uniform_bytes`. -/
def expandMessageXmd (msg : Bytes) (msgLen : UInt8) (dst : Bytes) (dstLen : UInt8) (len : UInt8) (out0 : Bytes) :
    C (Int × Bytes) :=
  let ell := (len.toNat + 64 - 1) / 64
  if ell > 255 then .ok (-1, out0)
  else if dstLen = 255 then .ok (-1, out0)
  else do
    let d ← rd dst 0 dstLen.toNat
    let dstPrime := d ++ [dstLen]
    let m ← rd msg 0 msgLen.toNat
    let msgPrime := List.replicate 128 0 ++ m ++ beBytes 2 len.toNat ++ [0] ++ dstPrime
    let b0 := Hashes.sha512 msgPrime
    let bi := Hashes.sha512 (b0.toList ++ [1] ++ dstPrime)
    let left := len.toNat
    let clen := if left > 64 then 64 else left
    let out ← putBlock out0 0 left bi
    let out ← xmdLoop b0 dstPrime ell 128 2 bi out clen (left - clen)
    .ok (0, out)

/-- The tag `"HashToGroup-" VOPRF "-\x00-ristretto255-SHA512"` with `VOPRF = "OPRFV1"`, oprf.c:35, 254. -/
def hashToGroupDst : Bytes :=
  [72, 97, 115, 104, 84, 111, 71, 114, 111, 117, 112, 45, 79, 80, 82, 70, 86, 49, 45, 0, 45, 114, 105, 115, 116, 114,
    101, 116, 116, 111, 50, 53, 53, 45, 83, 72, 65, 53, 49, 50]

/-- View of a 64-byte local buffer as array. -/
def toB64 (l : Bytes) : B64 := Vector.ofFn fun i : Fin 64 => l[i.1]?.getD 0

/-- `voprf_hash_to_group`, oprf.c:253-273. -/
def hashToGroup (mlock : Bool) (msg : Bytes) (msgLen : UInt8) (p0 : B32) : C (Int × B32) :=
  if !mlock then .ok (-1, p0)
  else do
    let (ret, u) ← expandMessageXmd msg msgLen hashToGroupDst (UInt8.ofNat hashToGroupDst.length) 64
      (List.replicate 64 0)
    if ret ≠ 0 then .ok (-1, p0)
    else .ok (0, fromHashBytes G (toB64 u))

/-- `oprf_Blind`, oprf.c:289-328. `rnd` is the scalar drawn by libsodium. The result is the return value, `r` and
`blinded`. The scratch point `H0` starts out as `scratch`. -/
def blind (mlock : Bool) (scratch : B32) (x : Bytes) (xLen : UInt8) (rnd r0 blinded0 : B32) : C (Int × B32 × B32) :=
  if !mlock then .ok (-1, r0, blinded0)
  else do
    let (ret, h0) ← hashToGroup G mlock x xLen scratch
    if ret ≠ 0 then .ok (-1, r0, blinded0)
    else
      let (ret, blinded) := scalarmult G blinded0 rnd h0
      if ret ≠ 0 then .ok (-1, rnd, blinded) else .ok (0, rnd, blinded)

/-- `oprf_Evaluate`, oprf.c:345-349. -/
def evaluate (k blinded Z0 : B32) : Int × B32 := scalarmult G Z0 k blinded

/-- `oprf_Unblind`, oprf.c:363-398. -/
def unblind (mlock : Bool) (r Z N0 : B32) : Int × B32 :=
  if isValidPoint G Z ≠ 1 then (-1, N0)
  else if !mlock then (-1, N0)
  else
    let (ret, ir) := scalarInvert r
    if ret ≠ 0 then (-1, N0)
    else
      let (ret, N) := scalarmult G N0 ir Z
      if ret ≠ 0 then (-1, N) else (0, N)

end Oprf

end Verif
