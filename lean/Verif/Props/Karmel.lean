import Verif.Proofs.Karmel

/-!
# Properties of the integers of the Noise library: C105
-/

namespace Verif.Props

open Karmel

/-- C105, masks: the comparisons without branches are right for all words: all bits are set if the comparison holds, and none
otherwise. -/
theorem C105_masks :
    (∀ a b : BitVec 64, eqMask64 a b = (if a = b then BitVec.allOnes 64 else 0#64) ∧
      gteMask64 a b = if a.toNat ≥ b.toNat then BitVec.allOnes 64 else 0#64) ∧
    (∀ a b : BitVec 32, eqMask32 a b = (if a = b then BitVec.allOnes 32 else 0#32) ∧
      gteMask32 a b = if a.toNat ≥ b.toNat then BitVec.allOnes 32 else 0#32) ∧
    (∀ a b : BitVec 16, eqMask16 a b = (if a = b then BitVec.allOnes 16 else 0#16) ∧
      gteMask16 a b = if a.toNat ≥ b.toNat then BitVec.allOnes 16 else 0#16) ∧
    (∀ a b : BitVec 8, eqMask8 a b = (if a = b then BitVec.allOnes 8 else 0#8) ∧
      gteMask8 a b = if a.toNat ≥ b.toNat then BitVec.allOnes 8 else 0#8) := by
  refine ⟨fun a b => ⟨eqMask64_eq a b, gteMask64_eq a b⟩, fun a b => ⟨eqMask32_eq a b, gteMask32_eq a b⟩,
    fun a b => ⟨eqMask16_eq a b, gteMask16_eq a b⟩, fun a b => ⟨eqMask8_eq a b, gteMask8_eq a b⟩⟩

/-- The masks of two words that differ in the highest bit only, and of two equal ones. -/
example : eqMask64 0x8000000000000001#64 1#64 = 0#64 ∧ gteMask64 0x8000000000000001#64 1#64 = 0xffffffffffffffff#64 ∧
    gteMask64 1#64 0x8000000000000001#64 = 0#64 ∧ eqMask8 7#8 7#8 = 0xff#8 ∧ gteMask16 5#16 6#16 = 0#16 ∧
    gteMask32 6#32 6#32 = 0xffffffff#32 := by decide

/-- C105, two words: the functions on structures of two words compute with the numbers of 128 bits that these stand for. `val` is
`high * 2 ^ 64 + low`. -/
theorem C105_struct (a b : U128) :
    (a.val.toNat = a.high.toNat * 2 ^ 64 + a.low.toNat) ∧
    (add a b).val = a.val + b.val ∧ (sub a b).val = a.val - b.val ∧
    (logand a b).val = a.val &&& b.val ∧ (logxor a b).val = a.val ^^^ b.val ∧ (logor a b).val = a.val ||| b.val ∧
    (lognot a).val = ~~~a.val ∧
    Karmel.eq a b = decide (a.val = b.val) ∧ Karmel.gt a b = decide (a.val.toNat > b.val.toNat) ∧
    Karmel.lt a b = decide (a.val.toNat < b.val.toNat) ∧ gte a b = decide (a.val.toNat ≥ b.val.toNat) ∧
    lte a b = decide (a.val.toNat ≤ b.val.toNat) ∧
    (eqMask a b).val = (if a.val = b.val then BitVec.allOnes 128 else 0#128) ∧
    (gteMask a b).val = (if a.val.toNat ≥ b.val.toNat then BitVec.allOnes 128 else 0#128) ∧
    (∀ x : BitVec 64, (ofU64 x).val.toNat = x.toNat) ∧ (toU64 a).toNat = a.val.toNat % 2 ^ 64 := by
  refine ⟨a.val_toNat, add_val a b, sub_val a b, logand_val a b, logxor_val a b, logor_val a b, lognot_val a, eq_val a b, gt_val a b,
    lt_val a b, gte_val a b, lte_val a b, eqMask_val a b, gteMask_val a b, fun x => ?_, ?_⟩
  · rw [U128.val_toNat]
    simp [ofU64]
  · rw [U128.val_toNat]
    have := a.low.isLt
    simp only [toU64]
    omega

/-- C105, shifts: of a number of 128 bits by less than 128, in all three implementations. By more the shift is undefined in all
three. -/
theorem C105_shifts (a : U128) (s : BitVec 32) :
    (shiftLeft a s).map U128.val = (if s.toNat < 128 then some (a.val <<< s.toNat) else none) ∧
    (shiftRight a s).map U128.val = (if s.toNat < 128 then some (a.val >>> s.toNat) else none) ∧
    Msvc.shiftLeft a s = shiftLeft a s ∧ Msvc.shiftRight a s = shiftRight a s ∧
    Gcc.shiftLeft a.val s = (shiftLeft a s).map U128.val ∧ Gcc.shiftRight a.val s = (shiftRight a s).map U128.val := by
  have hinj : Function.Injective U128.val := fun _ _ => U128.ext_val
  refine ⟨shiftLeft_val a s, shiftRight_val a s, Option.map_injective hinj ?_, Option.map_injective hinj ?_, ?_, ?_⟩
  · rw [Msvc.shiftLeft_val, shiftLeft_val]
  · rw [Msvc.shiftRight_val, shiftRight_val]
  · rw [shiftLeft_val]; rfl
  · rw [shiftRight_val]; rfl

/-- A shift over the border of the words, one by more than a word and one by too much. -/
example : shiftLeft ⟨0x8000000000000001#64, 1#64⟩ 1#32 = some ⟨2#64, 3#64⟩ ∧
    shiftRight ⟨0#64, 6#64⟩ 65#32 = some ⟨3#64, 0#64⟩ ∧ shiftLeft ⟨1#64, 1#64⟩ 128#32 = none := by decide

/-- C105, products: the product of two words has no overflow, in the two implementations that compute it by hand or with the
instruction of the processor. -/
theorem C105_products (x y : BitVec 64) (z : BitVec 32) :
    (mulWide x y).val.toNat = x.toNat * y.toNat ∧ (mul32 x z).val.toNat = x.toNat * z.toNat ∧
    Msvc.mulWide x y = mulWide x y ∧ Msvc.mul32 x z = mul32 x z := by
  have hx := x.isLt
  have hy := y.isLt
  have hz := z.isLt
  have h1 := Nat.mul_lt_mul'' hx hy
  have h2 := Nat.mul_lt_mul'' hx hz
  refine ⟨?_, ?_, U128.ext_val ?_, U128.ext_val ?_⟩
  · rw [mulWide_val]
    simp only [BitVec.toNat_mul, BitVec.toNat_setWidth]
    rw [Nat.mod_eq_of_lt (show x.toNat < 2 ^ 128 by omega), Nat.mod_eq_of_lt (show y.toNat < 2 ^ 128 by omega), Nat.mod_eq_of_lt (by omega)]
  · rw [mul32_val]
    simp only [BitVec.toNat_mul, BitVec.toNat_setWidth]
    rw [Nat.mod_eq_of_lt (show x.toNat < 2 ^ 128 by omega), Nat.mod_eq_of_lt (show z.toNat < 2 ^ 128 by omega), Nat.mod_eq_of_lt (by omega)]
  · rw [Msvc.mulWide_eq, mulWide_val]
  · rw [Msvc.mul32_eq, mul32_val]

/-- The largest product -/
example : mulWide 0xffffffffffffffff#64 0xffffffffffffffff#64 = ⟨1#64, 0xfffffffffffffffe#64⟩ := by decide

/-- C105, other compilers: the functions for MSVC that use vector registers, and the masks for GCC, give what the functions on
two words give. The complement is left out, see `C105_msvc_not_violated`. -/
theorem C105_compilers_partial (a b : U128) (x y : BitVec 128) :
    Msvc.add a b = add a b ∧ Msvc.sub a b = sub a b ∧ Msvc.eqMask a b = eqMask a b ∧
    Gcc.eqMask x y = (if x = y then BitVec.allOnes 128 else 0#128) ∧
    Gcc.gteMask x y = (if x.toNat ≥ y.toNat then BitVec.allOnes 128 else 0#128) := by
  refine ⟨U128.ext_val ?_, U128.ext_val ?_, U128.ext_val ?_, Gcc.eqMask_val x y, Gcc.gteMask_val x y⟩
  · rw [Msvc.add_val, add_val]
  · rw [Msvc.sub_val, sub_val]
  · rw [Msvc.eqMask_val, eqMask_val]

/-- C105, violated: with MSVC the complement of every number is 0, for `_mm_andnot_si128(a, a)` is `~a & a`. It is right for no
number but the one with all bits set. -/
theorem C105_msvc_not_violated (a : U128) :
    (Msvc.lognot a).val = 0#128 ∧ (Msvc.lognot a = lognot a ↔ a.val = BitVec.allOnes 128) := by
  have h0 : (Msvc.lognot a).val = 0#128 := by rw [Msvc.lognot_zero]; decide
  refine ⟨h0, fun h => ?_, fun h => U128.ext_val ?_⟩
  · have := congrArg U128.val h
    rw [h0, lognot_val] at this
    rw [← BitVec.not_not (b := a.val), ← this, BitVec.not_zero]
  · rw [h0, lognot_val, h, BitVec.not_allOnes]

example : Msvc.lognot ⟨5#64, 0#64⟩ = ⟨0#64, 0#64⟩ ∧ lognot ⟨5#64, 0#64⟩ = ⟨0xfffffffffffffffa#64, 0xffffffffffffffff#64⟩ := by decide

/-- C105, byte order: on every platform the loads and stores of 32 bits, and those of 64 bits with the most significant byte first,
are right, and those of 64 bits with the least significant byte first on all but one platform: an unknown one that stores the most
significant byte first. What is stored is what the same platform loads, without exception. -/
theorem C105_bytes_partial (p : Platform) :
    (∀ x : BitVec 32, store32le p x = leBytes 4 x.toNat ∧ store32be p x = beBytes 4 x.toNat) ∧
    (∀ b : Bytes, 4 ≤ b.length → (load32le p b).toNat = leNat (b.take 4) ∧ (load32be p b).toNat = beNat (b.take 4)) ∧
    (∀ x : BitVec 64, store64be p x = beBytes 8 x.toNat ∧ (p ≠ .fallback .big → store64le p x = leBytes 8 x.toNat)) ∧
    (∀ b : Bytes, 8 ≤ b.length → (load64be p b).toNat = beNat (b.take 8) ∧
      (p ≠ .fallback .big → (load64le p b).toNat = leNat (b.take 8))) ∧
    (∀ x : BitVec 64, ∀ t : Bytes, load64le p (store64le p x ++ t) = x ∧ load64be p (store64be p x ++ t) = x) := by
  have hl : ∀ {b : Bytes} {n : ℕ}, n ≤ b.length → (b.take n).length = n := fun h => by simpa using h
  refine ⟨fun x => ⟨rep_htole32 p x, rep_htobe32 p x⟩, fun b hb => ⟨?_, ?_⟩, fun x => ⟨rep_htobe64 p x, fun hp => rep_htole64 p hp x⟩,
    fun b hb => ⟨?_, fun hp => ?_⟩, fun x t => ⟨?_, ?_⟩⟩
  · have hv := leNat_lt_two (b.take 4)
    have he := leBytes_leNat (b.take 4)
    rw [hl hb] at hv he
    have := load_right (n := 4) (o := p.order) (f := htole32 p) (htole32_htole32 p) (g := leBytes 4) (rep_htole32 p) hv he.symm
    rw [load32le, this, BitVec.toNat_ofNat, Nat.mod_eq_of_lt hv]
  · have hv := beNat_lt_two (b.take 4)
    have he := beBytes_beNat (b.take 4)
    rw [hl hb] at hv he
    have := load_right (n := 4) (o := p.order) (f := htobe32 p) (htobe32_htobe32 p) (g := beBytes 4) (rep_htobe32 p) hv he.symm
    rw [load32be, this, BitVec.toNat_ofNat, Nat.mod_eq_of_lt hv]
  · have hv := beNat_lt_two (b.take 8)
    have he := beBytes_beNat (b.take 8)
    rw [hl hb] at hv he
    have := load_right (n := 8) (o := p.order) (f := htobe64 p) (htobe64_htobe64 p) (g := beBytes 8) (rep_htobe64 p) hv he.symm
    rw [load64be, this, BitVec.toNat_ofNat, Nat.mod_eq_of_lt hv]
  · have hv := leNat_lt_two (b.take 8)
    have he := leBytes_leNat (b.take 8)
    rw [hl hb] at hv he
    have := load_right (n := 8) (o := p.order) (f := htole64 p) (htole64_htole64 p) (g := leBytes 8) (rep_htole64 p hp) hv he.symm
    rw [load64le, this, BitVec.toNat_ofNat, Nat.mod_eq_of_lt hv]
  · rw [load64le, store64le, List.take_left' (rep_length _ 8 _)]
    exact load_of_store (n := 8) (htole64_htole64 p) x
  · rw [load64be, store64be, List.take_left' (rep_length _ 8 _)]
    exact load_of_store (n := 8) (htobe64_htobe64 p) x

/-- Stores on a big-endian system, on Windows and on an unknown little-endian platform. -/
example : store64le (.system .big) 0x0102030405060708#64 = [8, 7, 6, 5, 4, 3, 2, 1] ∧
    store32be .windows 0x01020304#32 = [1, 2, 3, 4] ∧
    store64be (.fallback .little) 0x0102030405060708#64 = [1, 2, 3, 4, 5, 6, 7, 8] := by decide

/-- C105, violated: on an unknown platform that stores the most significant byte first, `store64_le`, with which the nonces of the
Noise messages are written, puts the bytes of each half in the wrong order. It is right only for the numbers both halves of which
read the same in both directions; 1, the nonce of the second message, is not among them. -/
theorem C105_nonce_violated :
    (∀ x : BitVec 64, store64le (.fallback .big) x = beBytes 4 x.toNat ++ beBytes 4 (x.toNat / 2 ^ 32)) ∧
    (∀ x : BitVec 64, store64le (.fallback .big) x = leBytes 8 x.toNat ↔
      beBytes 4 x.toNat = leBytes 4 x.toNat ∧ beBytes 4 (x.toNat / 2 ^ 32) = leBytes 4 (x.toNat / 2 ^ 32)) ∧
    store64le (.fallback .big) 1#64 = [0, 0, 0, 1, 0, 0, 0, 0] ∧ leBytes 8 (1#64).toNat = [1, 0, 0, 0, 0, 0, 0, 0] := by
  have h1 : ∀ x : BitVec 64, store64le (.fallback .big) x = beBytes 4 x.toNat ++ beBytes 4 (x.toNat / 2 ^ 32) := by
    intro x
    have hx := x.isLt
    show rep .big 8 (swap64 (.fallback .big) x) = _
    rw [swap64_big, rep_append]
    simp only [rep, beBytes, BitVec.toNat_setWidth, BitVec.toNat_ushiftRight, Nat.shiftRight_eq_div_pow]
    congr 2
    · apply leNat_inj (by simp)
      rw [leNat_leBytes, leNat_leBytes]
      omega
    · congr 1
      omega
  refine ⟨h1, fun x => ?_, by decide, by decide⟩
  rw [h1, show (8 : ℕ) = 4 + 4 from rfl, Wire.leBytes_add, show (256 : ℕ) ^ 4 = 2 ^ 32 by norm_num]
  exact ⟨fun h => List.append_inj h (by simp), fun h => by rw [h.1, h.2]⟩

/-- C105, 128 bits: the loads and stores are those of the two words in the right order. -/
theorem C105_bytes128_partial (p : Platform) (n : U128) (b : Bytes) (hb : 16 ≤ b.length) :
    store128be p n = beBytes 16 n.val.toNat ∧ (load128be p b).val.toNat = beNat (b.take 16) ∧
    (p ≠ .fallback .big → store128le p n = leBytes 16 n.val.toNat ∧ (load128le p b).val.toNat = leNat (b.take 16)) := by
  obtain ⟨-, -, hs, hl, -⟩ := C105_bytes_partial p
  have hlow := n.low.isLt
  have hle : leBytes 16 n.val.toNat = leBytes 8 n.low.toNat ++ leBytes 8 n.high.toNat := by
    rw [show (16 : ℕ) = 8 + 8 from rfl, Wire.leBytes_add, n.val_toNat]
    congr 1
    · apply leNat_inj (by simp)
      rw [leNat_leBytes, leNat_leBytes]
      omega
    · congr 1
      omega
  have htake : b.take 16 = b.take 8 ++ (b.drop 8).take 8 := by
    rw [show (16 : ℕ) = 8 + 8 from rfl, List.take_add]
  have l1 : (b.take 8).length = 8 := by simp; omega
  have l2 : ((b.drop 8).take 8).length = 8 := by simp; omega
  have h8 : 8 ≤ (b.drop 8).length := by simp; omega
  refine ⟨?_, ?_, fun hp => ⟨?_, ?_⟩⟩
  · rw [store128be, (hs _).1, (hs _).1]
    simp only [beBytes, hle, List.reverse_append]
  · rw [U128.val_toNat, htake, Wire.beNat_append, l2]
    simp only [load128be, (hl b (by omega)).1, (hl _ h8).1]
    norm_num
  · rw [store128le, (hs _).2 hp, (hs _).2 hp, hle]
  · rw [U128.val_toNat, htake, Wire.leNat_append, l1]
    simp only [load128le, (hl b (by omega)).2 hp, (hl _ h8).2 hp]
    norm_num
    ring

example : store128le .windows ⟨1#64, 2#64⟩ = [1, 0, 0, 0, 0, 0, 0, 0, 2, 0, 0, 0, 0, 0, 0, 0] := by decide

/-- C105, loops: an unrolled loop of up to 16 rounds does what the loop does that it stands for, if the number of rounds is the one
that the limits give and the counter does not overflow. -/
theorem C105_loops {σ : Type} (z n k : BitVec 32) (x : BitVec 32 → σ → σ) (s : σ) (r : ℕ) (hr : r ≤ 16)
    (hlt : ∀ j < r, z.toNat + j * k.toNat < n.toNat) (hend : n.toNat ≤ z.toNat + r * k.toNat)
    (hov : z.toNat + r * k.toNat < 2 ^ 32) : ∀ fuel ≥ r, actualFor n k x fuel z s = some (maybeFor r z k x s) := by
  intro fuel hf
  rw [actualFor_iterate n k x r z s hlt hend hov hf]
  unfold maybeFor unrollFor
  split
  · rename_i h
    subst h
    rfl
  · rw [loop_iterate k x hr]

/-- The sum of the counters of a loop of seven rounds, from 3 in steps of 2 below 16 -/
example : maybeFor 7 3#32 2#32 (fun i s => s + i.toNat) 0 = 63 ∧
    actualFor 16#32 2#32 (fun i s => s + i.toNat) 7 3#32 0 = some 63 ∧
    (∀ j < 7, (3#32).toNat + j * (2#32).toNat < (16#32).toNat) ∧ (16#32).toNat ≤ (3#32).toNat + 7 * (2#32).toNat :=
  ⟨by simp [maybeFor, unrollFor, loop, loop1], by decide, by decide, by decide⟩

end Verif.Props
