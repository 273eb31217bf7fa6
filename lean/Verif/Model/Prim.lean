import Verif.Base.C
import Verif.Model.Noise

/-!
# The primitives of the Noise library on memory, src/noise_xk/src/Noise_XK.c:5-345

`Model/Noise.lean` describes these functions as functions of values. Here they work on the bytes of the address space, so
that buffers may overlap, local arrays hold indeterminate bytes before they are written, and what the functions leave in
their stack frames can be seen.

* A pointer is an address; 0 is NULL. A byte that belongs to no object is `none`.
* A local array is placed at the address `sp` of the frame; the callees use the addresses behind it. After the return its
  bytes stay where they are.
* `crypto_generichash_state` is a value: the input so far.
* The libsodium build (`WITH_HACL` undefined).
* X25519 is `NoiseCrypto.dh`; the failing call writes nothing. ChaCha20-Poly1305 is the class `Aead`; a failing
  decryption fills the output with zeros, as libsodium does.
* `memcpy` between overlapping regions is undefined; it has no reason of its own here and is reported as `oob`.
-/

namespace Verif

/-- ChaCha20-Poly1305-IETF with its 12-byte nonce. -/
class Aead where
  enc : (key nonce ad msg : Bytes) → Bytes
  dec : (key nonce ad cipher : Bytes) → Option Bytes
  enc_length : ∀ k n ad p, (enc k n ad p).length = p.length + 16
  dec_length : ∀ k n ad c p, dec k n ad c = some p → c.length = p.length + 16

namespace Prim

/-- A byte of the address space: of no object, indeterminate, or a value. -/
inductive Cell
  | none
  | uninit
  | val (b : UInt8)
  deriving DecidableEq, Repr

abbrev Mem := ℕ → Cell

abbrev P := StateT Mem C

def ub {α : Type} (u : UB) : P α := fun _ => .ub u

def load1 (a : ℕ) : P UInt8 := fun m =>
  match m a with
  | .val b => .ok (b, m)
  | .uninit => .ub .uninit
  | .none => .ub .oob

def store1 (a : ℕ) (b : UInt8) : P Unit := fun m =>
  match m a with
  | .none => .ub .oob
  | _ => .ok ((), fun x => if x = a then .val b else m x)

/-- Read of `n` bytes. -/
def get (a : ℕ) : ℕ → P Bytes
  | 0 => pure []
  | n + 1 => do
    let b ← load1 a
    let r ← get (a + 1) n
    pure (b :: r)

/-- Write of the bytes. -/
def put (a : ℕ) : Bytes → P Unit
  | [] => pure ()
  | b :: r => do
    store1 a b
    put (a + 1) r

/-- `memset` and `sodium_memzero` -/
def fill (a : ℕ) (v : UInt8) (n : ℕ) : P Unit := put a (List.replicate n v)

def memcpy (dst src n : ℕ) : P Unit :=
  if n = 0 ∨ dst + n ≤ src ∨ src + n ≤ dst then do
    let b ← get src n
    put dst b
  else ub .oob

/-- A local array without initialiser. -/
def locals (a n : ℕ) : P Unit := fun m => .ok ((), fun x => if a ≤ x ∧ x < a + n then .uninit else m x)

/-- A local array with the initialiser `{ 0U }`. -/
def zeros (a n : ℕ) : P Unit := do
  locals a n
  fill a 0 n

/-- Loop of `Noise_XK_lbytes_eq`, Noise_XK.c:8-16 -/
def eqLoop (b1 b2 : ℕ) : (n : ℕ) → (acc : UInt8) → P UInt8
  | 0, acc => pure acc
  | n + 1, acc => do
    let x1 ← load1 b1
    let x2 ← load1 b2
    eqLoop (b1 + 1) (b2 + 1) n ((x1 ^^^ x2) ||| acc)

/-- `Noise_XK_lbytes_eq`, Noise_XK.c:5-19 -/
def lbytesEq (len : UInt32) (b1 b2 : ℕ) : P Bool := do
  let r ← eqLoop b1 b2 len.toNat 0
  pure (r == 0)

/-- `Noise_XK_bytes_to_nonce`, Noise_XK.c:21-26, with `load64_le`, lowstar_endianness.h:172-176 and 202 -/
def bytesToNonce (n8 : ℕ) : P UInt64 := do
  let b ← get n8 8
  pure (UInt64.ofNat (leNat b))

/-- `store64_le`, lowstar_endianness.h:186-188 and 203 -/
def store64 (a : ℕ) (v : UInt64) : P Unit := put a (leBytes 8 v.toNat)

section
variable [Aead]

/-- `Noise_XK_aead_encrypt`, Noise_XK.c:52-75 -/
def aeadEncrypt (sp key : ℕ) (nonce : UInt64) (aadLen : UInt32) (aad : ℕ) (plen : UInt32) (plain cipher : ℕ) :
    P Unit := do
  zeros sp 12
  store64 (sp + 4) nonce
  let p ← get plain plen.toNat
  let ad ← get aad aadLen.toNat
  let n ← get sp 12
  let k ← get key 32
  put cipher (Aead.enc k n ad p)
  fill sp 0 12

/-- `Noise_XK_aead_decrypt`, Noise_XK.c:77-114: true for `CSuccess`. The length of the ciphertext is computed with 32
bits. -/
def aeadDecrypt (sp key : ℕ) (nonce : UInt64) (aadLen : UInt32) (aad : ℕ) (plen : UInt32) (plain cipher : ℕ) :
    P Bool := do
  zeros sp 12
  store64 (sp + 4) nonce
  let c ← get cipher (plen + 16).toNat
  let ad ← get aad aadLen.toNat
  let n ← get sp 12
  let k ← get key 32
  let ok ← (match Aead.dec k n ad c with
    | some p => do
      put plain p
      pure true
    | none => do
      fill plain 0 plen.toNat
      pure false)
  fill sp 0 12
  pure ok

end

section
variable [Hashes]

/-- `Noise_XK_hash`, Noise_XK.c:116-123 -/
def hash (output : ℕ) (inlen : UInt32) (input : ℕ) : P Unit := do
  let x ← get input inlen.toNat
  put output (Hashes.generichash64 x).toList

/-- `Noise_XK_mix_hash`, Noise_XK.c:125-163 -/
def mixHash (hash1 : ℕ) (inlen : UInt32) (input : ℕ) : P Unit := do
  let h ← get hash1 64
  let x ← get input inlen.toNat
  put hash1 (Hashes.generichash64 (h ++ x)).toList

/-- `Noise_XK_hashstate_xor_key`, Noise_XK.c:169-174 -/
def xorKey (key : ℕ) : (keyLen : ℕ) → (value : UInt8) → P Unit
  | 0, _ => pure ()
  | n + 1, v => do
    let b ← load1 key
    store1 key (b ^^^ v)
    xorKey (key + 1) n v

/-- The key of the inner hash, Noise_XK.c:187-195 -/
def keyBlock (sp : ℕ) (keylen : UInt32) (key : ℕ) : P Unit :=
  if keylen.toNat ≤ 128 then do
    memcpy sp key keylen.toNat
    fill (sp + keylen.toNat) 0 (128 - keylen.toNat)
  else do
    let k ← get key keylen.toNat
    put sp (Hashes.generichash64 k).toList
    fill (sp + 64) 0 (128 - 64)

/-- `Noise_XK_hmac`, Noise_XK.c:177-218; the frame has 128 bytes. -/
def hmac (sp output : ℕ) (keylen : UInt32) (key : ℕ) (datalen : UInt32) (data : ℕ) : P Unit := do
  locals sp 128
  keyBlock sp keylen key
  xorKey sp 128 0x36
  let b ← get sp 128
  let d ← get data datalen.toNat
  put output (Hashes.generichash64 (b ++ d)).toList
  xorKey sp 128 (0x36 ^^^ 0x5c)
  let b ← get sp 128
  let o ← get output 64
  put output (Hashes.generichash64 (b ++ o)).toList
  fill sp 0 128

/-- The third output of `Noise_XK_kdf`, Noise_XK.c:245-250 -/
def kdf3 (sp dst3 : ℕ) : P Unit :=
  if dst3 ≠ 0 then do
    store1 (sp + 64) 3
    hmac (sp + 129) sp 64 (sp + 65) 65 sp
    memcpy dst3 sp 64
  else pure ()

/-- The second output, Noise_XK.c:240-251 -/
def kdf2 (sp dst2 dst3 : ℕ) : P Unit :=
  if dst2 ≠ 0 then do
    store1 (sp + 64) 2
    hmac (sp + 129) sp 64 (sp + 65) 65 sp
    memcpy dst2 sp 64
    kdf3 sp dst3
  else pure ()

/-- The first output, Noise_XK.c:235-252 -/
def kdf1 (sp dst1 dst2 dst3 : ℕ) : P Unit :=
  if dst1 ≠ 0 then do
    store1 sp 1
    hmac (sp + 129) sp 64 (sp + 65) 1 sp
    memcpy dst1 sp 64
    kdf2 sp dst2 dst3
  else pure ()

/-- `Noise_XK_kdf`, Noise_XK.c:220-260; `output` is at `sp`, `secret` at `sp + 65`, the frame has 129 bytes. -/
def kdf (sp hash1 : ℕ) (keylen : UInt32) (key dst1 dst2 dst3 : ℕ) : P Unit := do
  zeros sp 65
  zeros (sp + 65) 64
  hmac (sp + 129) (sp + 65) 64 hash1 keylen key
  kdf1 sp dst1 dst2 dst3
  fill sp 0 65
  fill (sp + 65) 0 64

/-- `Noise_XK_mix_psk`, Noise_XK.c:262-279; `temp_hash` is at `sp`, `temp_k` at `sp + 64`. -/
def mixPsk (sp psk k ck h : ℕ) : P Unit := do
  zeros sp 64
  zeros (sp + 64) 64
  kdf (sp + 128) ck 32 psk ck sp (sp + 64)
  memcpy k (sp + 64) 32
  fill (sp + 64) 0 64
  mixHash h 64 sp
  fill sp 0 64

/-- The keys of the transport state, XK.c:2456-2463, 2662-2669, 3136-3143 and 3598-3605; `temp_k1` is at `sp`, `temp_k2`
at `sp + 64`. -/
def splitKeys (sp ck k1 k2 : ℕ) : P Unit := do
  zeros sp 64
  zeros (sp + 64) 64
  kdf (sp + 128) ck 0 0 sp (sp + 64) 0
  memcpy k1 sp 32
  memcpy k2 (sp + 64) 32
  fill sp 0 64
  fill (sp + 64) 0 64

section
variable [Aead]

/-- `Noise_XK_encrypt_and_hash`, Noise_XK.c:281-294; the length of the ciphertext is computed with 32 bits. -/
def encryptAndHash (sp : ℕ) (msgLen : UInt32) (msg cipher k h : ℕ) (nonce : UInt64) : P Unit := do
  aeadEncrypt sp k nonce 64 h msgLen msg cipher
  mixHash h (msgLen + 16) cipher

/-- `Noise_XK_decrypt_and_hash`, Noise_XK.c:296-315 -/
def decryptAndHash (sp : ℕ) (msgLen : UInt32) (msg cipher k h : ℕ) (nonce : UInt64) : P Bool := do
  let r ← aeadDecrypt sp k nonce 64 h msgLen msg cipher
  if r then do
    mixHash h (msgLen + 16) cipher
    pure true
  else pure false

end

section
variable [NoiseCrypto]

/-- `Noise_XK_dh`, Noise_XK.c:38-50: true for `CSuccess` -/
def dh (dest priv pub : ℕ) : P Bool := do
  let a ← get priv 32
  let b ← get pub 32
  match NoiseCrypto.dh (toB32 a) (toB32 b) with
  | some k => do
    put dest k.toList
    pure true
  | none => pure false

/-- `Noise_XK_mix_dh`, Noise_XK.c:317-344; `dh_key` is at `sp`, `temp_k` at `sp + 32`. -/
def mixDh (sp sec pub k ck : ℕ) : P Bool := do
  zeros sp 32
  let r1 ← dh sp sec pub
  let r2 ← (if r1 then do
      zeros (sp + 32) 64
      kdf (sp + 96) ck 32 sp ck (sp + 32) 0
      memcpy k (sp + 32) 32
      fill (sp + 32) 0 64
      pure true
    else pure false)
  fill sp 0 32
  pure r2

end

end

end Prim

end Verif
