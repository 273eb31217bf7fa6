import Verif.Sodium.Group

/-!
# Specifications: RFC 9380 `expand_message_xmd` and RFC 9497 OPRF(ristretto255, SHA-512)

Written from the RFC texts, independently of the model of `/repo/src/oprf.c`.
-/

namespace Verif.Spec

/-- RFC 8017 I2OSP. -/
def i2osp (n len : ℕ) : Bytes := (List.range len).map fun i => UInt8.ofNat (n / 256 ^ (len - 1 - i) % 256)

/-- RFC 9380 strxor. -/
def strxor (a b : Bytes) : Bytes := List.zipWith (· ^^^ ·) a b

/-- RFC 9380, 5.3.1: `DST_prime = DST || I2OSP(len(DST), 1)`. -/
def dstPrime (dst : Bytes) : Bytes := dst ++ i2osp dst.length 1

/-- RFC 9380, 5.3.1: `msg_prime = Z_pad || msg || l_i_b_str || I2OSP(0, 1) || DST_prime`, with the 128-byte input
block of SHA-512. -/
def msgPrime (msg dst : Bytes) (len : ℕ) : Bytes :=
  i2osp 0 128 ++ msg ++ i2osp len 2 ++ i2osp 0 1 ++ dstPrime dst

/-- RFC 9380, 5.3.1: the blocks `b_0`, `b_1`, `b_2`, … -/
def xmdBlock (H : Bytes → Bytes) (msg dst : Bytes) (len : ℕ) : ℕ → Bytes
  | 0 => H (msgPrime msg dst len)
  | 1 => H (H (msgPrime msg dst len) ++ i2osp 1 1 ++ dstPrime dst)
  | i + 2 => H (strxor (H (msgPrime msg dst len)) (xmdBlock H msg dst len (i + 1)) ++ i2osp (i + 2) 1 ++ dstPrime dst)

/-- RFC 9380, 5.3.1 for a hash with 64-byte outputs: `substr(b_1 || … || b_ell, 0, len)`. -/
def expandMessageXmd (H : Bytes → Bytes) (msg dst : Bytes) (len : ℕ) : Bytes :=
  let ell := (len + 63) / 64
  ((List.range ell).flatMap fun i => xmdBlock H msg dst len (i + 1)).take len

/-- `"HashToGroup-" || "OPRFV1-" || I2OSP(0, 1) || "-ristretto255-SHA512"` (RFC 9497, sections 3.1 and 4.1). -/
def hashToGroupDst : Bytes := "HashToGroup-OPRFV1-\x00-ristretto255-SHA512".toList.map fun c => UInt8.ofNat c.toNat

/-- RFC 9497, 4.1: HashToGroup for ristretto255. -/
def hashToGroup (G : Type) [Ristretto G] (H : Bytes → Bytes) (x : Bytes) : G :=
  Ristretto.fromHash (Vector.ofFn fun i : Fin 64 => (expandMessageXmd H x hashToGroupDst 64)[i.1]?.getD 0)

/-- RFC 9497, 3.3.1: the input of the final hash,
`I2OSP(len(input), 2) || input || I2OSP(len(unblindedElement), 2) || unblindedElement || "Finalize"`. -/
def finalizeInput (x : Bytes) (n : Bytes) : Bytes :=
  i2osp x.length 2 ++ x ++ i2osp n.length 2 ++ n ++ "Finalize".toList.map fun c => UInt8.ofNat c.toNat

/-- The OPRF output: `H(finalizeInput(x, k * HashToGroup(x)))`. -/
def oprf (G : Type) [Ristretto G] (H : Bytes → Bytes) (k : ZMod L) (x : Bytes) : Bytes :=
  H (finalizeInput x (Ristretto.enc (k • hashToGroup G H x)).toList)

end Verif.Spec
