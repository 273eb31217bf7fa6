import Verif.Sodium.Scalar
import Mathlib.Algebra.Module.ZMod
import Mathlib.Algebra.Field.ZMod

/-!
# ristretto255 as provided by libsodium

The group enters as a structure: an abelian group of prime order `L` with canonical 32-byte encodings. Nothing is
assumed about the hardness of discrete logarithms. `Ristretto.toy` at the end shows that the structure is inhabited.
The byte-level functions model `crypto_scalarmult_ristretto255`, `crypto_scalarmult_ristretto255_base`,
`crypto_core_ristretto255_add`, `_is_valid_point` and `_from_hash` (trusted base, see DESIGN.md).
-/

namespace Verif

/-- A group of order `L` with canonical encodings and a map from 64 uniform bytes (ristretto255). -/
class Ristretto (G : Type) extends AddCommGroup G where
  base : G
  enc : G → B32
  dec : B32 → Option G
  fromHash : B64 → G
  dec_enc : ∀ g, dec (enc g) = some g
  enc_dec : ∀ b g, dec b = some g → enc g = b
  enc_zero : enc 0 = zero32
  order : ∀ g : G, L • g = 0
  base_ne : base ≠ 0
  cyclic : ∀ g : G, ∃ k : ℕ, g = k • base

namespace Ristretto

variable {G : Type} [Ristretto G]

instance : Module (ZMod L) G := AddCommGroup.zmodModule Ristretto.order

theorem natCast_smul (n : ℕ) (g : G) : (n : ZMod L) • g = n • g := Nat.cast_smul_eq_nsmul (ZMod L) n g

theorem enc_injective : Function.Injective (enc : G → B32) := fun a b h => by
  have := dec_enc a
  rw [h, dec_enc] at this
  exact (Option.some.inj this).symm

theorem enc_eq_zero {g : G} : enc g = zero32 ↔ g = 0 := by
  rw [← enc_zero (G := G)]
  exact enc_injective.eq_iff

theorem dec_zero : dec (G := G) zero32 = some 0 := by rw [← enc_zero (G := G), dec_enc]

/-- Every element is a unique multiple of the base point. -/
theorem exists_smul_base (g : G) : ∃ k : ZMod L, g = k • (base : G) := by
  obtain ⟨k, hk⟩ := cyclic g
  exact ⟨k, by rw [natCast_smul]; exact hk⟩

theorem smul_base_inj {a b : ZMod L} (h : a • (base : G) = b • (base : G)) : a = b := by
  by_contra hne
  have : (a - b) • (base : G) = 0 := by rw [sub_smul, h, sub_self]
  rcases smul_eq_zero.1 this with h | h
  · exact hne (sub_eq_zero.1 h)
  · exact base_ne h

variable (G)

/-- The scalar as used by the point multiplications: bit 255 is cleared. -/
def maskedVal (n : B32) : ZMod L := ((n.toNat % 2 ^ 255 : ℕ) : ZMod L)

/-- `crypto_scalarmult_ristretto255(q, n, p)`: return value and the contents of `q` (previously `q0`). -/
def scalarmult (q0 n p : B32) : Int × B32 :=
  match dec (G := G) p with
  | none => (-1, q0)
  | some P =>
    let q := enc (maskedVal n • P)
    (if q = zero32 then -1 else 0, q)

/-- `crypto_scalarmult_ristretto255_base(q, n)` -/
def scalarmultBase (n : B32) : Int × B32 :=
  let q := enc (maskedVal n • (base : G))
  (if q = zero32 then -1 else 0, q)

/-- `crypto_core_ristretto255_add(r, p, q)`: return value and the contents of `r` (previously `r0`). -/
def pointAdd (r0 p q : B32) : Int × B32 :=
  match dec (G := G) p, dec (G := G) q with
  | some P, some Q => (0, enc (P + Q))
  | _, _ => (-1, r0)

/-- `crypto_core_ristretto255_is_valid_point` -/
def isValidPoint (p : B32) : Int := if (dec (G := G) p).isSome then 1 else 0

/-- `crypto_core_ristretto255_from_hash` (always succeeds) -/
def fromHashBytes (h : B64) : B32 := enc (fromHash h : G)

variable {G}

theorem maskedVal_canonical {n : B32} (h : n.Canonical) : maskedVal n = n.val := by
  rw [maskedVal, Nat.mod_eq_of_lt (lt_trans h L_lt_255)]; rfl

theorem maskedVal_ofZ (z : ZMod L) : maskedVal (B32.ofZ z) = z := by
  rw [maskedVal_canonical (B32.canonical_ofZ z), B32.val_ofZ]

theorem scalarmult_enc (q0 n : B32) (P : G) :
    scalarmult G q0 n (enc P) =
      (if enc (maskedVal n • P) = zero32 then -1 else 0, enc (maskedVal n • P)) := by
  simp only [scalarmult, dec_enc]

theorem scalarmult_enc_ok (q0 n : B32) {P : G} (h : maskedVal n • P ≠ 0) :
    scalarmult G q0 n (enc P) = (0, enc (maskedVal n • P)) := by
  rw [scalarmult_enc, if_neg (by rwa [enc_eq_zero])]

theorem pointAdd_enc (r0 : B32) (P Q : G) : pointAdd G r0 (enc P) (enc Q) = (0, enc (P + Q)) := by
  simp [pointAdd, dec_enc]

/-! ### A concrete instance -/

/-- The residues modulo `L` under addition, encoded as canonical little-endian scalars. It has the algebraic
properties of ristretto255 (discrete logarithms are of course trivial in it) and serves as witness that the
structure and the hypotheses of the theorems can be met. -/
@[reducible] def toy : Ristretto (ZMod L) where
  base := 1
  enc := B32.ofZ
  dec b := if b.Canonical then some b.val else none
  fromHash h := ((leNat h.toList : ℕ) : ZMod L)
  dec_enc g := by simp [B32.canonical_ofZ]
  enc_dec b g h := by
    split at h
    · rename_i hc; cases h; exact B32.ofZ_val hc
    · cases h
  enc_zero := zero32_eq.symm
  order g := by simp
  base_ne := one_ne_zero
  cyclic g := ⟨g.val, by simp⟩

end Ristretto

end Verif
