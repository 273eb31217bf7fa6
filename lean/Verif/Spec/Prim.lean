import Verif.Model.Prim

/-!
# HMAC, HKDF, nonces and memory regions

HMAC is RFC 2104 with BLAKE2b-512 (block of 128 bytes), HKDF is RFC 5869 as the Noise specification uses it, the nonce
encoding is the one of the Noise specification for ChaChaPoly.
-/

namespace Verif.Spec.Prim

open Verif.Prim

/-- The memory holds these bytes at `a`. -/
def Holds (m : Mem) (a : ℕ) (b : Bytes) : Prop := ∀ i (h : i < b.length), m (a + i) = .val b[i]

/-- The `n` bytes at `a` belong to objects. -/
def Space (m : Mem) (a n : ℕ) : Prop := ∀ i < n, m (a + i) ≠ .none

/-- The `n` bytes at `a` and the `k` bytes at `b` do not overlap. -/
def Apart (a n b k : ℕ) : Prop := n = 0 ∨ k = 0 ∨ a + n ≤ b ∨ b + k ≤ a

/-- The memory after the bytes `b` have been written at `a`. -/
def wrote (a : ℕ) (b : Bytes) (m : Mem) : Mem := fun x =>
  if a ≤ x ∧ x < a + b.length then .val (b.getD (x - a) 0) else m x

/-- `n` bytes of zero at `a`. -/
def cleared (a n : ℕ) (m : Mem) : Mem := wrote a (List.replicate n 0) m

section
variable [Hashes]

/-- The hash of RFC 2104 for this library. -/
def H (x : Bytes) : Bytes := (Hashes.generichash64 x).toList

/-- RFC 2104, section 2: keys longer than a block are hashed, then the key is filled up with zeros. -/
def blockKey (k : Bytes) : Bytes :=
  let k' := if 128 < k.length then H k else k
  (List.range 128).map fun i => k'.getD i 0

/-- RFC 2104, section 2. -/
def HMAC (k d : Bytes) : Bytes :=
  H ((blockKey k).map (· ^^^ 0x5c) ++ H ((blockKey k).map (· ^^^ 0x36) ++ d))

/-- RFC 5869, section 2.2: the pseudorandom key. -/
def PRK (salt ikm : Bytes) : Bytes := HMAC salt ikm

/-- RFC 5869, section 2.3, with empty `info`: the block `T(i)`. -/
def T (prk : Bytes) : ℕ → Bytes
  | 0 => []
  | i + 1 => HMAC prk (T prk i ++ [UInt8.ofNat (i + 1)])

/-- The `i`-th output of HKDF in the Noise specification (section 4.3). -/
def HKDF (ck ikm : Bytes) (i : ℕ) : Bytes := T (PRK ck ikm) i

/-- The memory after the outputs of HKDF have been written to the pointers up to the first NULL. -/
def delivered (ck ikm : Bytes) : (i : ℕ) → List ℕ → Mem → Mem
  | _, [], m => m
  | i, a :: as, m => if a = 0 then m else delivered ck ikm (i + 1) as (wrote a (HKDF ck ikm i) m)

end

/-- Noise specification, section 12.3: 32 bits of zeros, then the little-endian counter. -/
def nonce (n : UInt64) : Bytes := [0, 0, 0, 0] ++ (List.range 8).map fun i => UInt8.ofNat (n.toNat / 256 ^ i)

end Verif.Spec.Prim
