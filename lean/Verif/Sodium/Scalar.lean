import Verif.Base.Bytes
import Verif.Base.Prime
import Mathlib.FieldTheory.Finite.Basic

/-!
# libsodium's ristretto255 scalars

Model of the `crypto_core_ristretto255_scalar_*` functions used in `/repo/src/oprf.c`, `toprf.c`, `dkg.c` and
`mpmult.c`. libsodium itself is not part of `/repo`; these definitions are part of the trusted base (DESIGN.md,
"libsodium assumptions"). They are total on arbitrary 32-byte strings, canonical or not.
-/

namespace Verif

/-- The residue a 32-byte string stands for. -/
def B32.val (v : B32) : ZMod L := (v.toNat : ZMod L)

/-- The canonical 32-byte encoding of a residue. -/
def B32.ofZ (z : ZMod L) : B32 := B32.ofNat z.val

/-- The string is the canonical encoding of its residue. -/
def B32.Canonical (v : B32) : Prop := v.toNat < L

instance (v : B32) : Decidable v.Canonical := inferInstanceAs (Decidable (_ < _))

theorem L_lt_256 : L < 2 ^ 256 := lt_trans L_lt (by norm_num)
theorem L_lt_255 : L < 2 ^ 255 := lt_trans L_lt (by norm_num)
theorem L_gt_255 : 255 < L := lt_trans (by norm_num) L_gt

theorem B32.toNat_ofZ (z : ZMod L) : (B32.ofZ z).toNat = z.val :=
  B32.toNat_ofNat_of_lt (lt_trans (ZMod.val_lt z) L_lt_256)

@[simp] theorem B32.val_ofZ (z : ZMod L) : (B32.ofZ z).val = z := by
  rw [B32.val, B32.toNat_ofZ, ZMod.natCast_zmod_val]

theorem B32.canonical_ofZ (z : ZMod L) : (B32.ofZ z).Canonical := by
  rw [B32.Canonical, B32.toNat_ofZ]; exact ZMod.val_lt z

theorem B32.ofZ_val {v : B32} (h : v.Canonical) : B32.ofZ v.val = v := by
  apply B32.ext_toNat
  rw [B32.toNat_ofZ, B32.val, ZMod.val_natCast, Nat.mod_eq_of_lt h]

theorem B32.ofZ_injective : Function.Injective B32.ofZ := fun a b h => by
  rw [← B32.val_ofZ a, h, B32.val_ofZ]

theorem B32.canonical_ext {a b : B32} (ha : a.Canonical) (hb : b.Canonical) (h : a.val = b.val) : a = b := by
  rw [← B32.ofZ_val ha, ← B32.ofZ_val hb, h]

theorem B32.ofNat_mod (n : ℕ) : B32.ofNat (n % L) = B32.ofZ (n : ZMod L) := by
  rw [B32.ofZ, ZMod.val_natCast]

@[simp] theorem zero32_val : zero32.val = 0 := by simp [B32.val]
theorem zero32_eq : zero32 = B32.ofZ 0 := by simp [zero32, B32.ofZ]
theorem zero32_canonical : zero32.Canonical := by rw [zero32_eq]; exact B32.canonical_ofZ 0

@[simp] theorem B32.val_ofByte (b : UInt8) : (B32.ofByte b).val = (b.toNat : ZMod L) := by
  simp [B32.val]

theorem B32.ofByte_canonical (b : UInt8) : (B32.ofByte b).Canonical := by
  rw [B32.Canonical, B32.toNat_ofByte]
  have := b.toNat_lt
  exact lt_of_lt_of_le (show b.toNat < 256 by omega) (by have := L_gt_255; omega)

/-- `crypto_core_ristretto255_scalar_add`: 256-bit addition without the final carry, then reduction. -/
def scalarAdd (x y : B32) : B32 := B32.ofNat ((x.toNat + y.toNat) % 2 ^ 256 % L)

/-- `crypto_core_ristretto255_scalar_negate` -/
def scalarNeg (x : B32) : B32 := B32.ofZ (- x.val)

/-- `crypto_core_ristretto255_scalar_sub`: negate, then add. -/
def scalarSub (x y : B32) : B32 := scalarAdd x (scalarNeg y)

/-- `crypto_core_ristretto255_scalar_mul` -/
def scalarMul (x y : B32) : B32 := B32.ofNat (x.toNat * y.toNat % L)

/-- `crypto_core_ristretto255_scalar_invert`: return value and result. libsodium computes `x^(L-2) mod L` and
returns -1 iff all bytes are zero. -/
def scalarInvert (x : B32) : Int × B32 :=
  (if x = zero32 then -1 else 0, B32.ofZ (x.val ^ (L - 2)))

/-- The possible results of `crypto_core_ristretto255_scalar_random`: canonical and not zero. -/
def RandomScalar (x : B32) : Prop := x.Canonical ∧ x.toNat ≠ 0

theorem RandomScalar.val_ne {x : B32} (h : RandomScalar x) : x.val ≠ 0 := by
  intro h0
  have : x = zero32 := B32.canonical_ext h.1 zero32_canonical (by simpa using h0)
  exact h.2 (by simp [this])

theorem randomScalar_ofZ {z : ZMod L} (h : z ≠ 0) : RandomScalar (B32.ofZ z) :=
  ⟨B32.canonical_ofZ z, fun h0 => h (by
    have := congrArg B32.val (B32.toNat_eq_zero.1 h0)
    simpa using this)⟩

theorem scalarMul_eq (x y : B32) : scalarMul x y = B32.ofZ (x.val * y.val) := by
  rw [scalarMul, B32.ofNat_mod]; push_cast; rfl

/-- Addition is modular addition unless the 256-bit addition overflows. -/
theorem scalarAdd_eq_of_lt {x y : B32} (h : x.toNat + y.toNat < 2 ^ 256) :
    scalarAdd x y = B32.ofZ (x.val + y.val) := by
  rw [scalarAdd, Nat.mod_eq_of_lt h, B32.ofNat_mod]; push_cast; rfl

theorem scalarAdd_eq {x y : B32} (hx : x.Canonical) (hy : y.Canonical) :
    scalarAdd x y = B32.ofZ (x.val + y.val) := by
  apply scalarAdd_eq_of_lt
  have := L_lt_255
  unfold B32.Canonical at hx hy
  calc x.toNat + y.toNat < 2 ^ 255 + 2 ^ 255 := by omega
    _ = 2 ^ 256 := by norm_num

theorem scalarAdd_canonical (x y : B32) : (scalarAdd x y).Canonical := by
  rw [scalarAdd, B32.ofNat_mod]; exact B32.canonical_ofZ _

theorem scalarMul_canonical (x y : B32) : (scalarMul x y).Canonical := by
  rw [scalarMul_eq]; exact B32.canonical_ofZ _

theorem scalarSub_eq {x y : B32} (hx : x.Canonical) : scalarSub x y = B32.ofZ (x.val - y.val) := by
  rw [scalarSub, scalarAdd_eq hx (by exact B32.canonical_ofZ _), scalarNeg]
  simp [sub_eq_add_neg]

theorem inv_eq_pow (z : ZMod L) : z ^ (L - 2) = z⁻¹ := by
  have h2 : 2 ≤ L := L_prime.two_le
  have h3 : L - 2 ≠ 0 := by have := L_gt_255; omega
  by_cases h : z = 0
  · subst h; simp [h3]
  · have := ZMod.pow_card_sub_one_eq_one h
    apply eq_inv_of_mul_eq_one_left
    rw [← pow_succ]
    convert this using 2
    omega

theorem scalarInvert_eq (x : B32) : (scalarInvert x).2 = B32.ofZ (x.val)⁻¹ := by
  simp [scalarInvert, inv_eq_pow]

theorem scalarInvert_ret (x : B32) : (scalarInvert x).1 = 0 ↔ x ≠ zero32 := by
  unfold scalarInvert; split <;> simp_all

/-- Small bytes are distinct residues. -/
theorem byte_val_inj {a b : UInt8} (h : (a.toNat : ZMod L) = (b.toNat : ZMod L)) : a = b := by
  have ha := a.toNat_lt
  have hb := b.toNat_lt
  have := L_gt_255
  rw [ZMod.natCast_eq_natCast_iff'] at h
  rw [Nat.mod_eq_of_lt (by omega), Nat.mod_eq_of_lt (by omega)] at h
  exact UInt8.toNat_inj.1 h

end Verif
