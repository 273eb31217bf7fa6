import Mathlib.Data.List.Basic

/-!
# The states in C and as ctypes structures, src/tp-dkg.h:144-262 and python/pyoprf/__init__.py:463-528

The Python wrapper allocates the states of the peers and of the trusted party itself, from a description of their members.
The C functions then work on that memory with the layout that the compiler chose.

* Both sides place a member at the next multiple of its alignment, and an array is aligned like its elements (System V ABI;
  ctypes uses the same rule).
* The platform is given by the size of pointers and of `size_t` and by the alignment of `uint64_t`.
* `crypto_generichash_state` has 384 bytes and is declared with an alignment of 64; pysodium knows its size only.
* Addresses are numbers.
-/

namespace Verif.Layout

/-- A member of a structure. -/
structure Field where
  name : String
  size : ℕ
  align : ℕ
  deriving DecidableEq, Repr

/-- Sizes and alignments that differ between platforms. -/
structure Abi where
  /-- size and alignment of pointers and of `size_t` -/
  word : ℕ
  /-- alignment of `uint64_t` -/
  align64 : ℕ

/-- Linux on x86-64 and AArch64. -/
def lp64 : Abi := ⟨8, 8⟩
/-- Linux on i386. -/
def i386 : Abi := ⟨4, 4⟩
/-- Linux on 32-bit ARM. -/
def arm32 : Abi := ⟨4, 8⟩

/-- The next multiple of `a`. -/
def roundUp (x a : ℕ) : ℕ := (x + a - 1) / a * a

/-- Members with their offsets, from offset `o` on. -/
def place : (o : ℕ) → List Field → List (Field × ℕ)
  | _, [] => []
  | o, f :: fs => (f, roundUp o f.align) :: place (roundUp o f.align + f.size) fs

/-- End of the last member. -/
def endOf : (o : ℕ) → List Field → ℕ
  | o, [] => o
  | o, f :: fs => endOf (roundUp o f.align + f.size) fs

/-- Alignment of a structure. -/
def alignOf (fs : List Field) : ℕ := (fs.map (·.align)).foldr max 1

def sizeOf (fs : List Field) : ℕ := roundUp (endOf 0 fs) (alignOf fs)

/-- Offset of a member by its name. -/
def offsetOf (fs : List Field) (name : String) : Option ℕ :=
  ((place 0 fs).find? fun p => p.1.name = name).map (·.2)

section
variable (a : Abi)

def int (name : String) : Field := ⟨name, 4, 4⟩
def u8 (name : String) : Field := ⟨name, 1, 1⟩
def bytes (name : String) (n : ℕ) : Field := ⟨name, n, 1⟩
def u16 (name : String) : Field := ⟨name, 2, 2⟩
def u64 (name : String) : Field := ⟨name, 8, a.align64⟩
def ptr (name : String) : Field := ⟨name, a.word, a.word⟩
def size (name : String) : Field := ⟨name, a.word, a.word⟩
/-- `crypto_generichash_state` -/
def hashState (name : String) : Field := ⟨name, 384, 64⟩

/-- `TP_DKG_PeerState`, tp-dkg.h:144-174 -/
def peerC : List Field :=
  [int "step", int "prev", bytes "sessionid" 32, u8 "n", u8 "t", u8 "index", bytes "lt_sk" 64, bytes "sig_pk" 32,
   bytes "sig_sk" 64, bytes "noise_pk" 32, bytes "noise_sk" 32, bytes "tp_sig_pk" 32, u64 a "tp_last_ts", ptr a "last_ts",
   u64 a "ts_epsilon", ptr a "peer_sig_pks", ptr a "peer_noise_pks", ptr a "dev", ptr a "noise_outs", ptr a "noise_ins",
   ptr a "commitments", ptr a "shares", ptr a "xshares", u16 "complaints_len", ptr a "complaints", u8 "my_complaints_len",
   ptr a "my_complaints", hashState "transcript", bytes "share" 33]

/-- `TP_DKG_PeerState`, `__init__.py`:463-494 -/
def peerPy : List Field :=
  [int "step", int "prev", bytes "sessionid" 32, u8 "n", u8 "t", u8 "index", bytes "lt_sk" 64, bytes "sig_pk" 32,
   bytes "sig_sk" 64, bytes "noise_pk" 32, bytes "noise_sk" 32, bytes "tp_sig_pk" 32, u64 a "tp_last_ts", ptr a "last_ts",
   u64 a "ts_epsilon", ptr a "peer_sig_pks", ptr a "peer_noise_pks", ptr a "dev", ptr a "noise_outs", ptr a "noise_ins",
   ptr a "commitments", ptr a "shares", ptr a "xshares", u16 "complaints_len", ptr a "complaints", u8 "my_complaints_len",
   ptr a "my_complaints", bytes "padding" 24, bytes "transcript" 384, bytes "share" 33]

/-- `TP_DKG_TPState`, tp-dkg.h:240-262 -/
def tpC : List Field :=
  [int "step", int "prev", bytes "sessionid" 32, u8 "n", u8 "t", bytes "sig_pk" 32, bytes "sig_sk" 64, ptr a "last_ts",
   u64 a "ts_epsilon", ptr a "peer_sig_pks", ptr a "peer_lt_pks", ptr a "commitments", ptr a "encrypted_shares",
   u16 "complaints_len", ptr a "complaints", size a "cheater_len", ptr a "cheaters", size a "cheater_max",
   hashState "transcript"]

/-- `TP_DKG_TPState`, `__init__.py`:504-528 -/
def tpPy : List Field :=
  [int "step", int "prev", bytes "sessionid" 32, u8 "n", u8 "t", bytes "sig_pk" 32, bytes "sig_sk" 64, ptr a "last_ts",
   u64 a "ts_epsilon", ptr a "peer_sig_pks", ptr a "peer_lt_pks", ptr a "commitments", ptr a "encrypted_shares",
   u16 "complaints_len", ptr a "complaints", size a "cheater_len", ptr a "cheaters", size a "cheater_max",
   bytes "padding" 24, bytes "transcript" 384]

/-- `TP_DKG_Cheater`, tp-dkg.h:189-195 -/
def cheaterC : List Field := [int "step", int "error", u8 "peer", u8 "other_peer", int "invalid_index"]

/-- `TP_DKG_Cheater`, `__init__.py`:496-502 -/
def cheaterPy : List Field := [int "step", int "error", u8 "peer", u8 "other_peer", int "invalid_index"]

end

/-- Size of the buffer for a state, `__init__.py`:547 and 650 -/
def bufSize (fs : List Field) : ℕ := sizeOf fs + 32

/-- Address of the state in a buffer at address `b`, `__init__.py`:548-553 and 651-656; `none` is the exception. -/
def stateAddr (b : ℕ) : Option ℕ :=
  if (b + b % 32) % 32 ≠ 0 then none else some (b + b % 32)

end Verif.Layout
