import Verif.Base.C
import Mathlib.Tactic.Ring
import Mathlib.Tactic.Linarith
import Mathlib.Data.Nat.Basic

/-!
# Byte strings

Little and big endian encodings of naturals and fixed-size arrays.
-/

namespace Verif

abbrev Bytes := List UInt8
/-- `uint8_t x[32]` -/
abbrev B32 := Vector UInt8 32
/-- `uint8_t x[64]` -/
abbrev B64 := Vector UInt8 64

/-- Little-endian value of a byte string. -/
def leNat : Bytes → ℕ
  | [] => 0
  | b :: bs => b.toNat + 256 * leNat bs

/-- Little-endian encoding of `n` in `k` bytes (`n` is reduced modulo `256^k`). -/
def leBytes : (k n : ℕ) → Bytes
  | 0, _ => []
  | k + 1, n => UInt8.ofNat (n % 256) :: leBytes k (n / 256)

/-- Big-endian encoding, the network byte order of `htons`, `htonl` and `htonll`. -/
def beBytes (k n : ℕ) : Bytes := (leBytes k n).reverse

/-- Big-endian value. -/
def beNat (b : Bytes) : ℕ := leNat b.reverse

@[simp] theorem leBytes_length : ∀ k n, (leBytes k n).length = k
  | 0, _ => rfl
  | k + 1, n => by simp [leBytes, leBytes_length k]

@[simp] theorem beBytes_length (k n : ℕ) : (beBytes k n).length = k := by simp [beBytes]

theorem leNat_lt : ∀ b : Bytes, leNat b < 256 ^ b.length
  | [] => by simp [leNat]
  | b :: bs => by
    have h := leNat_lt bs
    have hb := b.toNat_lt
    simp only [leNat, List.length_cons, pow_succ]
    have : leNat bs + 1 ≤ 256 ^ bs.length := h
    nlinarith

theorem leNat_leBytes : ∀ k n, leNat (leBytes k n) = n % 256 ^ k
  | 0, n => by simp [leBytes, leNat, Nat.mod_one]
  | k + 1, n => by
    simp only [leBytes, leNat, leNat_leBytes k]
    rw [pow_succ', Nat.mod_mul]
    simp

theorem leBytes_leNat : ∀ b : Bytes, leBytes b.length (leNat b) = b
  | [] => rfl
  | b :: bs => by
    have hb := b.toNat_lt
    have h1 : (b.toNat + 256 * leNat bs) % 256 = b.toNat := by omega
    have h2 : (b.toNat + 256 * leNat bs) / 256 = leNat bs := by omega
    simp only [leNat, List.length_cons, leBytes, h1, h2, leBytes_leNat bs]
    simp

theorem beNat_beBytes (k n : ℕ) : beNat (beBytes k n) = n % 256 ^ k := by
  simp [beNat, beBytes, leNat_leBytes]

theorem beBytes_beNat (b : Bytes) : beBytes b.length (beNat b) = b := by
  have := leBytes_leNat b.reverse
  simp only [List.length_reverse] at this
  simp [beNat, beBytes, this]

theorem leNat_inj {a b : Bytes} (hl : a.length = b.length) (h : leNat a = leNat b) : a = b := by
  rw [← leBytes_leNat a, ← leBytes_leNat b, hl, h]

/-- Value of a 32-byte array read as little-endian integer. -/
def B32.toNat (v : B32) : ℕ := leNat v.toList

/-- The 32-byte little-endian encoding of `n` (modulo `2^256`). -/
def B32.ofNat (n : ℕ) : B32 := ⟨(leBytes 32 n).toArray, by simp⟩

theorem B32.toNat_lt (v : B32) : v.toNat < 2 ^ 256 := by
  have h := leNat_lt v.toList
  have hl : v.toList.length = 32 := by simp
  rw [hl] at h
  calc v.toNat < 256 ^ 32 := h
    _ = 2 ^ 256 := by norm_num

theorem B32.toNat_ofNat (n : ℕ) : (B32.ofNat n).toNat = n % 2 ^ 256 := by
  have : (B32.ofNat n).toList = leBytes 32 n := by simp [B32.ofNat, Vector.toList]
  rw [B32.toNat, this, leNat_leBytes]
  norm_num

theorem B32.toNat_ofNat_of_lt {n : ℕ} (h : n < 2 ^ 256) : (B32.ofNat n).toNat = n := by
  rw [B32.toNat_ofNat, Nat.mod_eq_of_lt h]

theorem B32.ext_toNat {a b : B32} (h : a.toNat = b.toNat) : a = b := by
  apply Vector.toList_inj.1
  exact leNat_inj (by simp) h

@[simp] theorem B32.ofNat_toNat (v : B32) : B32.ofNat v.toNat = v :=
  B32.ext_toNat (B32.toNat_ofNat_of_lt v.toNat_lt)

/-- 32 zero bytes, as written by `memset(x,0,32)` or `={0}`. -/
def zero32 : B32 := B32.ofNat 0

@[simp] theorem zero32_toNat : zero32.toNat = 0 := B32.toNat_ofNat_of_lt (by norm_num)

theorem B32.toNat_eq_zero {v : B32} : v.toNat = 0 ↔ v = zero32 :=
  ⟨fun h => B32.ext_toNat (by simp [h]), fun h => by simp [h]⟩

/-- `uint8_t x[32]={b}` (also `={0}; x[0]=b`): a single low byte, all others zero. -/
def B32.ofByte (b : UInt8) : B32 := B32.ofNat b.toNat

@[simp] theorem B32.toNat_ofByte (b : UInt8) : (B32.ofByte b).toNat = b.toNat :=
  B32.toNat_ofNat_of_lt (lt_trans b.toNat_lt (by norm_num))

/-- The low byte really is the first element of the array. -/
theorem B32.ofByte_toList (b : UInt8) : (B32.ofByte b).toList = b :: List.replicate 31 0 := by
  have h0 : ∀ k, leBytes k 0 = List.replicate k 0 := by
    intro k; induction k with
    | zero => rfl
    | succ k ih => simp [leBytes, ih, List.replicate_succ]
  have hb := b.toNat_lt
  have : (B32.ofByte b).toList = leBytes 32 b.toNat := by simp [B32.ofByte, B32.ofNat, Vector.toList]
  rw [this]
  have h1 : b.toNat % 256 = b.toNat := Nat.mod_eq_of_lt (by omega)
  have h2 : b.toNat / 256 = 0 := by omega
  simp [leBytes, h1, h2, List.replicate_succ]

/-- Fixed-size view of a list (for lists of the right length). -/
def toB32 (l : Bytes) : B32 := B32.ofNat (leNat (l.take 32))

theorem toB32_toList (v : B32) : toB32 v.toList = v := by
  have : v.toList.take 32 = v.toList := List.take_of_length_le (by simp)
  rw [toB32, this]
  exact B32.ofNat_toNat v

theorem toB32_list {l : Bytes} (h : l.length = 32) : (toB32 l).toList = l := by
  apply leNat_inj
  · simp [h]
  · have : l.take 32 = l := List.take_of_length_le (by omega)
    have hlt := leNat_lt l
    rw [h] at hlt
    have := B32.toNat_ofNat_of_lt (n := leNat l) (by
      calc leNat l < 256 ^ 32 := hlt
        _ = 2 ^ 256 := by norm_num)
    rw [toB32, List.take_of_length_le (by omega)]
    exact this

end Verif
