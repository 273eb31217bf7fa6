import Verif.Proofs.Toy

/-!
# Properties C01–C08: the OPRF (`/repo/src/oprf.c`)
-/

set_option linter.unusedSectionVars false

namespace Verif.Props

open Ristretto Verif.Oprf

variable (G : Type) [Ristretto G] [Hashes]

/-! ## C01 -/

/-- **C01.** Blind, evaluate, unblind and finalize all return 0 and yield the RFC 9497 output, which mentions neither
the blind nor any earlier buffer content. -/
theorem C01_oprf_correct (x : Bytes) (hx : x.length ≤ 255) (k r : B32) (hk : maskedVal k ≠ 0) (hr : RandomScalar r)
    (hH : Spec.hashToGroup G sha x ≠ 0) (scratch r0 b0 Z0 N0 : B32) (y0 : B64) :
    ∃ blinded Z N : B32, ∃ y : B64,
      blind G true scratch x (UInt8.ofNat x.length) r r0 b0 = .ok (0, r, blinded) ∧
      evaluate G k blinded Z0 = (0, Z) ∧
      unblind G true r Z N0 = (0, N) ∧
      finalize true x (UInt16.ofNat x.length) N y0 = .ok (0, y) ∧
      y.toList = Spec.oprf G sha (maskedVal k) x := by
  have hxl : (UInt8.ofNat x.length).toNat = x.length := by simp; omega
  have hxl16 : (UInt16.ofNat x.length).toNat = x.length := by simp; omega
  have hrv := hr.val_ne
  set H := Spec.hashToGroup G sha x with hHdef
  have hrm : maskedVal r = r.val := maskedVal_canonical hr.1
  have h1 : r.val • H ≠ 0 := smul_ne_zero hrv hH
  have h2 : maskedVal k • (r.val • H) ≠ 0 := smul_ne_zero hk h1
  have h3 : (r.val)⁻¹ • (maskedVal k • (r.val • H)) = maskedVal k • H := by
    rw [smul_smul, smul_smul]
    congr 1
    field_simp
  refine ⟨enc (r.val • H), enc (maskedVal k • r.val • H), enc (maskedVal k • H),
    Hashes.sha512 (Spec.finalizeInput x (enc (maskedVal k • H)).toList), ?_, ?_, ?_, ?_, rfl⟩
  · unfold blind
    rw [if_neg (by simp), hashToGroup_ok G x _ (by omega), hxl, List.take_length, ← hHdef]
    simp only [C.ok_bind, ne_eq, not_true_eq_false, if_false]
    rw [scalarmult_enc_ok _ _ (by rwa [hrm]), hrm]
    simp
  · unfold evaluate
    rw [scalarmult_enc_ok _ _ h2]
  · unfold unblind
    have hr0 : r ≠ zero32 := fun h => hrv (by simp [h])
    have hi : scalarInvert r = (0, B32.ofZ (r.val)⁻¹) :=
      Prod.ext ((scalarInvert_ret r).2 hr0) (scalarInvert_eq r)
    rw [if_neg (by simp [isValidPoint, dec_enc]), if_neg (by simp), hi]
    simp only [ne_eq, not_true_eq_false, if_false]
    rw [scalarmult_enc_ok _ _ (by rw [maskedVal_ofZ, h3]; exact smul_ne_zero hk hH), maskedVal_ofZ, h3]
    simp
  · unfold finalize
    rw [if_neg (by simp), hxl16, rd_ok (by omega)]
    simp only [C.ok_bind, List.drop_zero, List.take_length, Spec.finalizeInput, i2osp_two, finalizeDst_eq,
      Vector.length_toList]

/-- **C01, failure side.** An input that hashes to the identity is refused by the blinding step. -/
theorem C01_oprf_identity_refused (x : Bytes) (hx : x.length ≤ 255) (r : B32)
    (hH : Spec.hashToGroup G sha x = 0) (scratch r0 b0 : B32) :
    ∃ b, blind G true scratch x (UInt8.ofNat x.length) r r0 b0 = .ok (-1, r, b) := by
  have hxl : (UInt8.ofNat x.length).toNat = x.length := by simp; omega
  refine ⟨enc (0 : G), ?_⟩
  unfold blind
  rw [if_neg (by simp), hashToGroup_ok G x _ (by omega), hxl, List.take_length, hH]
  simp only [C.ok_bind, ne_eq, not_true_eq_false, if_false]
  rw [scalarmult_enc]
  simp [enc_zero]

/-- **C01, failure side.** When memory cannot be locked every step that locks memory reports failure and writes
nothing. -/
theorem C01_oprf_mlock_fails (x : Bytes) (xl : UInt8) (xl' : UInt16) (r Z N0 scratch r0 b0 : B32) (y0 : B64) :
    blind G false scratch x xl r r0 b0 = .ok (-1, r0, b0) ∧
    unblind G false r Z N0 = (-1, N0) ∧
    finalize false x xl' Z y0 = .ok (-1, y0) := by
  refine ⟨by simp [blind], ?_, by simp [finalize]⟩
  unfold unblind; split <;> simp

section
attribute [local instance] Ristretto.toy
/-- The hypotheses of C01 can be met. -/
example : ([1, 2, 3] : Bytes).length ≤ 255 ∧ maskedVal (B32.ofZ ((7 : ℕ) : ZMod L)) ≠ 0 ∧
    RandomScalar (B32.ofZ ((5 : ℕ) : ZMod L)) ∧ Spec.hashToGroup (ZMod L) (@sha Toy.hashes) [1, 2, 3] ≠ 0 :=
  ⟨by decide, by rw [maskedVal_ofZ]; exact Toy.natCast_ne_zero (by norm_num) (by norm_num),
    Toy.randomScalar 5 (by norm_num) (by norm_num), Toy.hashToGroup_ne _⟩
end

/-! ## C02 -/

theorem blind_eq (x : Bytes) (hx : x.length ≤ 255) (r : B32) (hr : RandomScalar r)
    (hH : Spec.hashToGroup G sha x ≠ 0) (scratch r0 b0 : B32) :
    blind G true scratch x (UInt8.ofNat x.length) r r0 b0 =
      .ok (0, r, enc (r.val • Spec.hashToGroup G sha x)) := by
  have hxl : (UInt8.ofNat x.length).toNat = x.length := by simp; omega
  have hrm : maskedVal r = r.val := maskedVal_canonical hr.1
  unfold blind
  rw [if_neg (by simp), hashToGroup_ok G x _ (by omega), hxl, List.take_length]
  simp only [C.ok_bind, ne_eq, not_true_eq_false, if_false]
  rw [scalarmult_enc_ok _ _ (by rw [hrm]; exact smul_ne_zero hr.val_ne hH), hrm]
  simp

/-- **C02.** For a fixed input the blinded element is uniform: each non-identity element is the result of exactly one
of the scalars libsodium can draw. The right-hand side does not depend on the input. -/
theorem C02_blind_uniform (x : Bytes) (hx : x.length ≤ 255) (hH : Spec.hashToGroup G sha x ≠ 0)
    (scratch r0 b0 : B32) (g : G) (hg : g ≠ 0) :
    ∃! r, RandomScalar r ∧ blind G true scratch x (UInt8.ofNat x.length) r r0 b0 = .ok (0, r, enc g) := by
  obtain ⟨a, ha⟩ := exists_smul_base (Spec.hashToGroup G sha x)
  obtain ⟨c, hc⟩ := exists_smul_base g
  have ha0 : a ≠ 0 := by rintro rfl; exact hH (by rw [ha, zero_smul])
  have hc0 : c ≠ 0 := by rintro rfl; exact hg (by rw [hc, zero_smul])
  have hr : RandomScalar (B32.ofZ (c * a⁻¹)) := randomScalar_ofZ (mul_ne_zero hc0 (inv_ne_zero ha0))
  refine ⟨B32.ofZ (c * a⁻¹), ⟨hr, ?_⟩, ?_⟩
  · rw [blind_eq G x hx _ hr hH, B32.val_ofZ, ha, hc, smul_smul]
    congr 4
    field_simp
  · rintro r ⟨hr', h⟩
    rw [blind_eq G x hx _ hr' hH] at h
    have h' : enc (r.val • Spec.hashToGroup G sha x) = enc g := by simpa using h
    have h2 := enc_injective h'
    rw [ha, hc, smul_smul] at h2
    have h3 := smul_base_inj h2
    apply B32.canonical_ext hr'.1 hr.1
    rw [B32.val_ofZ, ← h3]
    field_simp

/-- **C02.** What the server sees for one input it sees for any other input, under exactly one other blind. -/
theorem C02_blind_hides (x x' : Bytes) (hx : x.length ≤ 255) (hx' : x'.length ≤ 255)
    (hH : Spec.hashToGroup G sha x ≠ 0) (hH' : Spec.hashToGroup G sha x' ≠ 0) (scratch r0 b0 : B32) (r : B32)
    (hr : RandomScalar r) :
    ∃ b, blind G true scratch x (UInt8.ofNat x.length) r r0 b0 = .ok (0, r, b) ∧
      ∃! r', RandomScalar r' ∧ blind G true scratch x' (UInt8.ofNat x'.length) r' r0 b0 = .ok (0, r', b) :=
  ⟨_, blind_eq G x hx r hr hH scratch r0 b0,
    C02_blind_uniform G x' hx' hH' scratch r0 b0 _ (smul_ne_zero hr.val_ne hH)⟩

section
attribute [local instance] Ristretto.toy
example : Spec.hashToGroup (ZMod L) (@sha Toy.hashes) [1] ≠ 0 ∧
    Spec.hashToGroup (ZMod L) (@sha Toy.hashes) [2, 3] ≠ 0 ∧
    RandomScalar (B32.ofZ ((5 : ℕ) : ZMod L)) :=
  ⟨Toy.hashToGroup_ne _, Toy.hashToGroup_ne _, Toy.randomScalar 5 (by norm_num) (by norm_num)⟩
end

/-! ## C03 -/

/-- **C03.** `expand_message_xmd` on valid buffers: for a tag of up to 254 bytes it returns 0, the first
`len_in_bytes` bytes of the output buffer are RFC 9380's and nothing else is written; a tag of 255 bytes is refused
without writing. -/
theorem C03_expand_message_xmd (msg dst out : Bytes) (len : UInt8) (hm : msg.length ≤ 255) (hd : dst.length ≤ 255)
    (ho : len.toNat ≤ out.length) :
    expandMessageXmd msg (UInt8.ofNat msg.length) dst (UInt8.ofNat dst.length) len out =
      if dst.length ≤ 254 then .ok (0, Spec.expandMessageXmd sha msg dst len.toNat ++ out.drop len.toNat)
      else .ok (-1, out) := by
  have h1 : (UInt8.ofNat msg.length).toNat = msg.length := by simp; omega
  have h2 : (UInt8.ofNat dst.length).toNat = dst.length := by simp; omega
  split
  · rename_i h
    have := expandMessageXmd_ok msg dst out (UInt8.ofNat msg.length) (UInt8.ofNat dst.length) len (by omega) (by omega)
      (by intro hc; have := congrArg UInt8.toNat hc; rw [h2] at this; simp at this; omega) ho
    rw [this, h1, h2, List.take_length, List.take_length]
  · rename_i h
    have hl := len.toNat_lt
    have h255 : dst.length = 255 := by omega
    unfold expandMessageXmd
    rw [if_neg (by omega), if_pos (by rw [h255]; rfl)]

/-- **C03.** The written part has exactly the requested length (so the output is determined completely). -/
theorem C03_expand_message_xmd_length (msg dst : Bytes) (len : UInt8) :
    (Spec.expandMessageXmd sha msg dst len.toNat).length = len.toNat := spec_xmd_length msg dst len.toNat

/-- **C03.** The hash-to-group function built on it is RFC 9497's. -/
theorem C03_hash_to_group (msg : Bytes) (hm : msg.length ≤ 255) (p0 : B32) :
    Oprf.hashToGroup G true msg (UInt8.ofNat msg.length) p0 = .ok (0, enc (Spec.hashToGroup G sha msg)) := by
  have h1 : (UInt8.ofNat msg.length).toNat = msg.length := by simp; omega
  rw [hashToGroup_ok G msg _ (by omega), h1, List.take_length]

/-- A three-block request (odd block count with a partial last block) meets the hypotheses. -/
example : (([1, 2] : Bytes).length ≤ 255) ∧ ((List.replicate 254 7 : Bytes).length ≤ 254) ∧
    (150 : UInt8).toNat ≤ (List.replicate 150 0 : Bytes).length :=
  ⟨by decide, List.length_replicate.le, List.length_replicate.ge⟩

/-! ## C04 -/

/-- **C04.** `oprf_Finalize` hashes the string RFC 9497 defines. -/
theorem C04_finalize_rfc (x : Bytes) (hx : x.length ≤ 65535) (N : B32) (y0 : B64) :
    finalize true x (UInt16.ofNat x.length) N y0 = .ok (0, Hashes.sha512 (Spec.finalizeInput x N.toList)) := by
  have hxl16 : (UInt16.ofNat x.length).toNat = x.length := by simp; omega
  unfold finalize
  rw [if_neg (by simp), hxl16, rd_ok (by omega)]
  simp only [C.ok_bind, List.drop_zero, List.take_length, Spec.finalizeInput, i2osp_two, finalizeDst_eq,
    Vector.length_toList]

/-- **C04.** That string determines both the input and the element. -/
theorem C04_finalize_injective (x x' : Bytes) (N N' : B32) (hx : x.length ≤ 65535) (hx' : x'.length ≤ 65535)
    (h : Spec.finalizeInput x N.toList = Spec.finalizeInput x' N'.toList) : x = x' ∧ N = N' := by
  simp only [Spec.finalizeInput, i2osp_two, List.append_assoc] at h
  have h1 := List.append_inj h (by simp)
  have hl : x.length = x'.length := by
    have := congrArg beNat h1.1
    rw [beNat_beBytes, beNat_beBytes] at this
    omega
  have h2 := List.append_inj h1.2 hl
  have h3 := List.append_inj h2.2 (by simp)
  have h4 := List.append_inj h3.2 (by simp)
  exact ⟨h2.1, Vector.toList_inj.1 h4.1⟩

example : ([1, 2, 3] : Bytes).length ≤ 65535 := by decide

/-! ## C05 -/

omit [Hashes] in
/-- **C05.** `oprf_Evaluate` returns 0 exactly for canonical non-identity elements and non-zero (masked) keys. -/
theorem C05_evaluate_iff (k b Z0 : B32) :
    (evaluate G k b Z0).1 = 0 ↔ (∃ P : G, dec b = some P ∧ P ≠ 0) ∧ maskedVal k ≠ 0 := by
  unfold evaluate scalarmult
  cases hd : dec (G := G) b with
  | none => simp
  | some P =>
    simp only [Option.some.injEq, exists_eq_left']
    by_cases hk : maskedVal k = 0 <;> by_cases hP : P = 0 <;> simp [hk, hP, enc_eq_zero]

omit [Hashes] in
/-- **C05.** Whenever it returns 0 the output is the canonical encoding of the product, which is not the identity;
otherwise it returns -1. -/
theorem C05_evaluate_output (k b Z0 : B32) :
    ((evaluate G k b Z0).1 = 0 ∧ ∃ P : G, dec b = some P ∧ dec (evaluate G k b Z0).2 = some (maskedVal k • P) ∧
      maskedVal k • P ≠ 0) ∨ (evaluate G k b Z0).1 = -1 := by
  unfold evaluate scalarmult
  cases hd : dec (G := G) b with
  | none => simp
  | some P =>
    by_cases h : maskedVal k • P = 0
    · right; simp [h, enc_zero]
    · left
      have h' : enc (maskedVal k • P) ≠ zero32 := by rwa [Ne, enc_eq_zero]
      exact ⟨if_neg h', P, rfl, dec_enc _, h⟩

section
attribute [local instance] Ristretto.toy
/-- Success and failure both occur. -/
example : (evaluate (ZMod L) (B32.ofZ 1) (enc (1 : ZMod L)) zero32).1 = 0 ∧
    (evaluate (ZMod L) (B32.ofZ 0) (enc (1 : ZMod L)) zero32).1 = -1 := by
  constructor
  · rw [C05_evaluate_iff]
    exact ⟨⟨1, dec_enc _, one_ne_zero⟩, by rw [maskedVal_ofZ]; exact one_ne_zero⟩
  · rcases C05_evaluate_output (ZMod L) (B32.ofZ 0) (enc (1 : ZMod L)) zero32 with h | h
    · exact absurd (maskedVal_ofZ 0) ((C05_evaluate_iff (ZMod L) _ _ _).1 h.1).2
    · exact h
end

/-! ## C06 -/

omit [Hashes] in
/-- **C06.** `oprf_Unblind` returns 0 exactly when memory could be locked, the element is canonical and not the
identity and the blind is not 0 modulo the group order. -/
theorem C06_unblind_iff (ml : Bool) (r Z N0 : B32) :
    (unblind G ml r Z N0).1 = 0 ↔ ml = true ∧ r.val ≠ 0 ∧ ∃ P : G, dec Z = some P ∧ P ≠ 0 := by
  unfold unblind
  cases hd : dec (G := G) Z with
  | none => simp [isValidPoint, hd]
  | some P =>
    have hv : isValidPoint G Z = 1 := by simp [isValidPoint, hd]
    rw [if_neg (by simp [hv])]
    cases ml with
    | false => simp
    | true =>
      simp only [Bool.not_true, Bool.false_eq_true, if_false, true_and]
      by_cases hr : r = zero32
      · simp [scalarInvert, hr]
      · have hi : scalarInvert r = (0, B32.ofZ (r.val)⁻¹) :=
          Prod.ext ((scalarInvert_ret r).2 hr) (scalarInvert_eq r)
        rw [hi]
        simp only [ne_eq, not_true_eq_false, if_false]
        by_cases h : (r.val)⁻¹ • P = 0
        · have : ¬ (r.val ≠ 0 ∧ P ≠ 0) := by
            rintro ⟨h1, h2⟩; exact smul_ne_zero (inv_ne_zero h1) h2 h
          simp [scalarmult, hd, maskedVal_ofZ, h, enc_zero]
          tauto
        · have h' : r.val ≠ 0 ∧ P ≠ 0 := by
            rw [smul_eq_zero, inv_eq_zero, not_or] at h; exact h
          simp [scalarmult, hd, maskedVal_ofZ, h, enc_eq_zero, h'.1, h'.2]

omit [Hashes] in
/-- **C06.** On success the output is a canonical non-identity element and blinding it again gives the input back. -/
theorem C06_unblind_inverts (ml : Bool) (r Z N0 : B32) (h : (unblind G ml r Z N0).1 = 0) :
    ∃ N P : G, dec (unblind G ml r Z N0).2 = some N ∧ N ≠ 0 ∧ dec Z = some P ∧ r.val • N = P := by
  obtain ⟨rfl, hr, P, hP, hP0⟩ := (C06_unblind_iff G ml r Z N0).1 h
  have hr0 : r ≠ zero32 := fun h => hr (by simp [h])
  have hi : scalarInvert r = (0, B32.ofZ (r.val)⁻¹) := Prod.ext ((scalarInvert_ret r).2 hr0) (scalarInvert_eq r)
  have hne : (r.val)⁻¹ • P ≠ 0 := smul_ne_zero (inv_ne_zero hr) hP0
  refine ⟨(r.val)⁻¹ • P, P, ?_, hne, hP, by rw [smul_smul, mul_inv_cancel₀ hr, one_smul]⟩
  unfold unblind
  simp [isValidPoint, hP, hi, scalarmult, maskedVal_ofZ, hne, enc_eq_zero, dec_enc]

section
attribute [local instance] Ristretto.toy
example : (unblind (ZMod L) true (B32.ofZ ((5 : ℕ) : ZMod L)) (enc (1 : ZMod L)) zero32).1 = 0 := by
  rw [C06_unblind_iff]
  exact ⟨rfl, by rw [B32.val_ofZ]; exact Toy.natCast_ne_zero (by norm_num) (by norm_num), 1, dec_enc _, one_ne_zero⟩
end

/-! ## C07 -/

/-- `pyoprf.blind(x)`, python/pyoprf/__init__.py:81-85: passes `len(x)` as a 64-bit integer for the 8-bit parameter
`x_len` of `oprf_Blind`, of which the C function sees the low byte. -/
def pyBlind (scratch : B32) (x : Bytes) (rnd r0 b0 : B32) : C (Int × B32 × B32) :=
  blind G true scratch x (UInt8.ofNat x.length) rnd r0 b0

/-- **C07, as far as it holds.** Inputs of up to 255 bytes are blinded as a whole. Missing: longer inputs, for which
the property is false (next theorem). -/
theorem C07_blind_whole_input_partial (x : Bytes) (hx : x.length ≤ 255) (r : B32) (hr : RandomScalar r)
    (hH : Spec.hashToGroup G sha x ≠ 0) (scratch r0 b0 : B32) :
    pyBlind G scratch x r r0 b0 = .ok (0, r, enc (r.val • Spec.hashToGroup G sha x)) :=
  blind_eq G x hx r hr hH scratch r0 b0

/-- **C07 is violated.** Any input is blinded as its prefix of length `len mod 256`. -/
theorem C07_blind_truncates (x : Bytes) (scratch r r0 b0 : B32) :
    pyBlind G scratch x r r0 b0 = pyBlind G scratch (x.take (x.length % 256)) r r0 b0 := by
  have h1 : (UInt8.ofNat x.length).toNat = x.length % 256 := by simp
  have hle : x.length % 256 ≤ x.length := Nat.mod_le _ _
  have h2 : (x.take (x.length % 256)).length = x.length % 256 := by simp [hle]
  have h3 : (UInt8.ofNat (x.length % 256)) = UInt8.ofNat x.length := by
    apply UInt8.toNat_inj.1; simp
  unfold pyBlind blind
  rw [if_neg (by simp), if_neg (by simp), hashToGroup_ok G x _ (by omega),
    hashToGroup_ok G _ _ (by rw [h2, h3]; omega), h1, h2, h3, h1, List.take_take, Nat.min_self]

/-- **C07 is violated.** In particular all 256-byte inputs have the same blinded element under the same blind. -/
theorem C07_blind_256_collide (x x' : Bytes) (hx : x.length = 256) (hx' : x'.length = 256) (scratch r r0 b0 : B32) :
    pyBlind G scratch x r r0 b0 = pyBlind G scratch x' r r0 b0 := by
  rw [C07_blind_truncates, C07_blind_truncates G x', hx, hx']
  rfl

example : (List.replicate 256 (1 : UInt8)).length = 256 ∧ (List.replicate 256 (2 : UInt8)).length = 256 ∧
    List.replicate 256 (1 : UInt8) ≠ List.replicate 256 2 := by
  refine ⟨List.length_replicate, List.length_replicate, fun h => ?_⟩
  have := congrArg List.head? h
  rw [List.head?_replicate, List.head?_replicate] at this
  exact absurd this (by decide)

/-! ## C08 -/

omit [Hashes] in
/-- **C08.** Evaluating under `k1` and the result under `k2` has the same outcome as evaluating under the product. -/
theorem C08_evaluate_compose (k1 k2 b Z0 Z1 Z2 : B32) (h1 : k1.Canonical) (h2 : k2.Canonical)
    (h : (evaluate G k1 b Z0).1 = 0) :
    evaluate G k2 (evaluate G k1 b Z0).2 Z1 = evaluate G (scalarMul k1 k2) b Z2 := by
  obtain ⟨⟨P, hP, hP0⟩, hk⟩ := (C05_evaluate_iff G k1 b Z0).1 h
  have e1 : (evaluate G k1 b Z0).2 = enc (maskedVal k1 • P) := by simp [evaluate, scalarmult, hP]
  rw [e1]
  unfold evaluate
  rw [scalarmult_enc]
  simp only [scalarmult, hP]
  rw [scalarMul_eq, maskedVal_ofZ, maskedVal_canonical h1, maskedVal_canonical h2, smul_smul, mul_comm]

omit [Hashes] in
/-- **C08.** The order of two evaluations does not matter. -/
theorem C08_evaluate_comm (k1 k2 b Z0 Z1 : B32) (h1 : k1.Canonical) (h2 : k2.Canonical)
    (ha : (evaluate G k1 b Z0).1 = 0) (hb : (evaluate G k2 b Z0).1 = 0) :
    evaluate G k2 (evaluate G k1 b Z0).2 Z1 = evaluate G k1 (evaluate G k2 b Z0).2 Z1 := by
  rw [C08_evaluate_compose G k1 k2 b Z0 Z1 Z0 h1 h2 ha, C08_evaluate_compose G k2 k1 b Z0 Z1 Z0 h2 h1 hb]
  congr 1
  rw [scalarMul_eq, scalarMul_eq, mul_comm]

section
attribute [local instance] Ristretto.toy
example : (B32.ofZ 1).Canonical ∧ (evaluate (ZMod L) (B32.ofZ 1) (enc (1 : ZMod L)) zero32).1 = 0 := by
  refine ⟨B32.canonical_ofZ _, ?_⟩
  rw [C05_evaluate_iff]
  exact ⟨⟨1, dec_enc _, one_ne_zero⟩, by rw [maskedVal_ofZ]; exact one_ne_zero⟩
end

end Verif.Props
