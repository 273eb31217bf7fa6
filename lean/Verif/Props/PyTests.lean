import Verif.Proofs.PyTests
import Verif.Props.Tests

/-!
# Property C96: the tests of the Python wrapper (`/repo/python/tests/test.py`)

The specification of a sharing is `sharing`; `Spec.oprf` and `Spec.hashToGroup` are those of C01.
-/

set_option linter.unusedSectionVars false

namespace Verif.Props

open Ristretto Spec Polynomial Verif.Toprf Verif.PyTests

/-- The share at `x` of the secret `s` with the coefficients `a 0` and `a 1`. -/
def sharing (s : ZMod L) (a : ℕ → B32) (x : ℕ) : ZMod L := s + x * (a 0).val + x ^ 2 * (a 1).val

theorem dealPoly_three (s : ZMod L) (a : ℕ → B32) (x : ZMod L) :
    (dealPoly s 3 a).eval x = s + x * (a 0).val + x ^ 2 * (a 1).val := by
  simp [dealPoly, polyOf, List.range_succ]
  ring

theorem dealPoly_sharing (s : ZMod L) (a : ℕ → B32) (i : UInt8) : (dealPoly s 3 a).eval (point i) = sharing s a i.toNat := by
  rw [dealPoly_three]
  rfl

/-- The five shares. -/
theorem forall_five {p : ℕ → Prop} : (∀ i ∈ ([1, 2, 3, 4, 5] : List UInt8), p i.toNat) ↔ ∀ i, 1 ≤ i → i ≤ 5 → p i := by
  constructor
  · intro h i h1 h5
    have : i = 1 ∨ i = 2 ∨ i = 3 ∨ i = 4 ∨ i = 5 := by omega
    rcases this with rfl | rfl | rfl | rfl | rfl
    · exact h 1 (by decide)
    · exact h 2 (by decide)
    · exact h 3 (by decide)
    · exact h 4 (by decide)
    · exact h 5 (by decide)
  · intro h i hi
    have : 1 ≤ i.toNat ∧ i.toNat ≤ 5 := by
      revert i
      decide
    exact h _ this.1 this.2

section
variable (G : Type) [Ristretto G] [Hashes] (junk : UInt8) (scratch : B32)

theorem oprfRun_real (x : Bytes) (hx : x.length ≤ 255) (k r : B32) (hk : maskedVal k ≠ 0) (hr : RandomScalar r)
    (hH : Spec.hashToGroup G Oprf.sha x ≠ 0) :
    oprfRun (real G junk scratch) x k.toList r = .ret (Spec.oprf G Oprf.sha (maskedVal k) x) := by
  have hne : maskedVal k • Spec.hashToGroup G Oprf.sha x ≠ 0 := smul_ne_zero hk hH
  unfold oprfRun
  rw [real_blind G junk scratch x hx r hr hH, ret_bind]
  dsimp only
  rw [real_evaluate_enc, if_neg (smul_ne_zero hk (smul_ne_zero hr.val_ne hH)), ret_bind, smul_comm (maskedVal k),
    real_unblind G junk scratch r hr _ hne, ret_bind, real_finalize G junk scratch x (by omega)]
  rfl

/-- **C96, `test_cfrg_irtf`.** The test passes for all keys and blinding scalars that can be drawn. -/
theorem C96_cfrg (r1 k r2 : B32) (hr1 : RandomScalar r1) (hk : RandomScalar k) (hr2 : RandomScalar r2)
    (hH : Spec.hashToGroup G Oprf.sha PyTests.input ≠ 0) : testCfrg (real G junk scratch) r1 k r2 = .ret () := by
  have hm : maskedVal k ≠ 0 := by rw [maskedVal_canonical hk.1]; exact hk.val_ne
  have h1 := oprfRun_real G junk scratch PyTests.input (by decide) k r1 hm hr1 hH
  have h2 := oprfRun_real G junk scratch PyTests.input (by decide) k r2 hm hr2 hH
  unfold oprfRun at h1
  rw [real_blind G junk scratch PyTests.input (by decide) r1 hr1 hH, ret_bind] at h1
  unfold testCfrg
  rw [real_blind G junk scratch PyTests.input (by decide) r1 hr1 hH, ret_bind]
  have hkg : (real G junk scratch).keygen k = .ret k.toList := rfl
  rw [hkg, ret_bind, h2]
  dsimp only at h1 ⊢
  rw [real_evaluate_enc] at h1 ⊢
  by_cases h0 : maskedVal k • r1.val • Spec.hashToGroup G Oprf.sha PyTests.input = 0
  · rw [if_pos h0, raised_bind] at h1
    cases h1
  rw [if_neg h0, ret_bind] at h1 ⊢
  rw [smul_comm (maskedVal k), real_unblind G junk scratch r1 hr1 _ (smul_ne_zero hm hH), ret_bind] at h1 ⊢
  rw [h1, ret_bind, ret_bind]
  exact if_pos rfl

/-- **C96, the test vectors.** For every input, key and expected output: the test passes exactly if the expected output is that
of the OPRF of RFC 9497. Whatever blinding scalar is drawn makes no difference. -/
theorem C96_vector (x out : Bytes) (hx : x.length ≤ 255) (k r : B32) (hk : maskedVal k ≠ 0) (hr : RandomScalar r)
    (hH : Spec.hashToGroup G Oprf.sha x ≠ 0) :
    testVector (real G junk scratch) x k.toList out r =
      if out = Spec.oprf G Oprf.sha (maskedVal k) x then .ret () else .failed := by
  unfold testVector
  rw [oprfRun_real G junk scratch x hx k r hk hr hH, ret_bind]
  unfold assertEqual
  simp only [eq_comm]

/-- **C96, `test_hashDH_update`.** The test passes for all keys, updates and blinding scalars that can be drawn. -/
theorem C96_update (r1 k delta r2 : B32) (hr1 : RandomScalar r1) (hk : RandomScalar k) (hd : RandomScalar delta)
    (hr2 : RandomScalar r2) (hH : Spec.hashToGroup G Oprf.sha PyTests.input ≠ 0) :
    testUpdate G (real G junk scratch) r1 k delta r2 = .ret () := by
  have hm : maskedVal k = k.val := maskedVal_canonical hk.1
  have hkg : (real G junk scratch).keygen k = .ret k.toList := rfl
  have hkH : k.val • Spec.hashToGroup G Oprf.sha PyTests.input ≠ 0 := smul_ne_zero hk.val_ne hH
  have hk2 : maskedVal (scalarMul k delta) = delta.val * k.val := by
    rw [scalarMul_eq, maskedVal_ofZ, mul_comm]
  have hk2H : (delta.val * k.val) • Spec.hashToGroup G Oprf.sha PyTests.input ≠ 0 :=
    smul_ne_zero (mul_ne_zero hd.val_ne hk.val_ne) hH
  unfold testUpdate
  rw [real_blind G junk scratch PyTests.input (by decide) r1 hr1 hH, ret_bind, hkg, ret_bind]
  dsimp only
  rw [real_evaluate_enc, hm, if_neg (smul_ne_zero hk.val_ne (smul_ne_zero hr1.val_ne hH)), ret_bind, smul_comm k.val,
    real_unblind G junk scratch r1 hr1 _ hkH, ret_bind, toB32_toList]
  have hs : sodiumMult G delta.toList (enc (k.val • Spec.hashToGroup G Oprf.sha PyTests.input)).toList =
      .ret (enc ((delta.val * k.val) • Spec.hashToGroup G Oprf.sha PyTests.input)).toList := by
    unfold sodiumMult
    rw [toB32_toList, toB32_toList, scalarmult_enc_ok _ _ (by
      rw [maskedVal_canonical hd.1]; exact smul_ne_zero hd.val_ne hkH), maskedVal_canonical hd.1, smul_smul]
    rfl
  rw [hs, ret_bind, real_blind G junk scratch PyTests.input (by decide) r2 hr2 hH, ret_bind]
  dsimp only
  rw [real_evaluate_enc, hk2, if_neg (smul_ne_zero (mul_ne_zero hd.val_ne hk.val_ne) (smul_ne_zero hr2.val_ne hH)), ret_bind,
    smul_comm (delta.val * k.val), real_unblind G junk scratch r2 hr2 _ hk2H, ret_bind]
  exact if_pos rfl

/-! ## Sharings -/

theorem partials_real (P : G) (hP : P ≠ 0) (f : (ZMod L)[X]) : ∀ l : List UInt8,
    ((∀ i ∈ l, f.eval (point i) ≠ 0) ∧ partials (real G junk scratch) (enc P).toList
        ((l.map fun i => (⟨i, B32.ofZ (f.eval (point i))⟩ : Share)).map pack) =
      .ret ((l.map fun i => (⟨i, enc (f.eval (point i) • P)⟩ : Share)).map pack)) ∨
    (¬ (∀ i ∈ l, f.eval (point i) ≠ 0) ∧ partials (real G junk scratch) (enc P).toList
        ((l.map fun i => (⟨i, B32.ofZ (f.eval (point i))⟩ : Share)).map pack) = .raised)
  | [] => Or.inl ⟨by simp, rfl⟩
  | i :: l => by
    have e : ∀ s : Share, (pack s).drop 1 = s.value.toList := fun s => rfl
    simp only [List.map_cons, partials, e]
    rw [real_evaluate_enc, maskedVal_ofZ, List.forall_mem_cons]
    by_cases h : f.eval (point i) = 0
    · right
      rw [if_pos (by rw [h, zero_smul])]
      exact ⟨fun h' => h'.1 h, rfl⟩
    · rw [if_neg (smul_ne_zero h hP), ret_bind]
      rcases partials_real P hP f l with ⟨h1, h2⟩ | ⟨h1, h2⟩
      · left
        rw [h2, ret_bind]
        exact ⟨⟨h, h1⟩, rfl⟩
      · right
        rw [h2]
        exact ⟨fun h' => h1 h'.2, rfl⟩

/-- **C96, `test_toprf_sss`.** The test never fails on its assertion. It passes exactly if none of the five shares is 0 and
raises an exception otherwise. -/
theorem C96_sss (k r : B32) (a : ℕ → B32) (hk : RandomScalar k) (hr : RandomScalar r)
    (hH : Spec.hashToGroup G Oprf.sha PyTests.input ≠ 0) :
    ((∀ i, 1 ≤ i → i ≤ 5 → sharing k.val a i ≠ 0) → testSss (real G junk scratch) k a r = .ret ()) ∧
    (¬ (∀ i, 1 ≤ i → i ≤ 5 → sharing k.val a i ≠ 0) → testSss (real G junk scratch) k a r = .raised) := by
  set H := Spec.hashToGroup G Oprf.sha PyTests.input with hHd
  have hm : maskedVal k = k.val := maskedVal_canonical hk.1
  have hkg : (real G junk scratch).keygen k = .ret k.toList := rfl
  have hP : r.val • H ≠ 0 := smul_ne_zero hr.val_ne hH
  have hkH : k.val • H ≠ 0 := smul_ne_zero hk.val_ne hH
  rw [← forall_five]
  simp only [← dealPoly_sharing]
  unfold testSss
  rw [hkg, ret_bind, real_create G junk scratch a k hk.1, ret_bind,
    real_blind G junk scratch PyTests.input (by decide) r hr hH, ret_bind]
  dsimp only
  rcases partials_real G junk scratch (r.val • H) hP (dealPoly k.val 3 a) [1, 2, 3, 4, 5] with ⟨h1, h2⟩ | ⟨h1, h2⟩
  · refine ⟨fun _ => ?_, fun h => absurd h1 h⟩
    rw [h2, ret_bind, real_thresholdmult, thresholdmult_recovers G junk scratch _ (dealPoly k.val 3 a) (r.val • H) (by simp)
      (by simp) (by simp) (lt_of_lt_of_le (dealPoly_degree _ 3 (by decide) a)
        (by rw [List.length_map]; exact_mod_cast (by decide : 3 ≤ 5))) (by
        intro s hs
        obtain ⟨i, hi, rfl⟩ := List.mem_map.1 hs
        exact ⟨rfl, smul_ne_zero (h1 i hi) hP⟩)]
    have e0 : (dealPoly k.val 3 a).eval 0 = k.val := by rw [dealPoly_three]; ring
    rw [e0, smul_comm k.val]
    show Run.bind (.ret _) _ = _
    dsimp only [Run.bind]
    rw [real_unblind G junk scratch r hr _ hkH, ret_bind, real_evaluate_enc, hm, if_neg (smul_ne_zero hk.val_ne hP),
      ret_bind, smul_comm k.val, real_unblind G junk scratch r hr _ hkH, ret_bind]
    exact if_pos rfl
  · refine ⟨fun h => absurd h h1, fun _ => ?_⟩
    rw [h2]
    rfl

theorem weighted_real (P : G) (hP : P ≠ 0) (f : (ZMod L)[X]) : ∀ l : List ℤ, (∀ i ∈ l, i = 1 ∨ i = 2 ∨ i = 4) →
    ((∀ i ∈ l, f.eval (point (Py.u8 i)) ≠ 0) ∧ ∃ ss : List Share, ss.length = l.length ∧
      weighted (real G junk scratch)
        ((([1, 2, 3, 4, 5] : List UInt8).map fun i => (⟨i, B32.ofZ (f.eval (point i))⟩ : Share)).map pack)
        (enc P).toList [4, 2, 1] l = .ret (ss.map pack)) ∨
    (¬ (∀ i ∈ l, f.eval (point (Py.u8 i)) ≠ 0) ∧ weighted (real G junk scratch)
        ((([1, 2, 3, 4, 5] : List UInt8).map fun i => (⟨i, B32.ofZ (f.eval (point i))⟩ : Share)).map pack)
        (enc P).toList [4, 2, 1] l = .raised)
  | [], _ => Or.inl ⟨by simp, [], rfl, rfl⟩
  | i :: l, hl => by
    have hi := hl i List.mem_cons_self
    have hget : ((([1, 2, 3, 4, 5] : List UInt8).map fun i => (⟨i, B32.ofZ (f.eval (point i))⟩ : Share)).map pack).getD
        (i - 1).toNat [] = pack ⟨Py.u8 i, B32.ofZ (f.eval (point (Py.u8 i)))⟩ := by
      rcases hi with rfl | rfl | rfl <;> rfl
    have hsucc := C16_evaluate_succeeds G ⟨Py.u8 i, B32.ofZ (f.eval (point (Py.u8 i)))⟩ P Py.zeroShare
      (([4, 2, 1] : List ℤ).map Py.u8) (by decide)
    rw [B32.val_ofZ] at hsucc
    simp only [weighted]
    rw [hget, real_tevaluate G junk scratch _ _ i (by omega) [4, 2, 1] (by decide) (by decide), List.forall_mem_cons]
    by_cases h : f.eval (point (Py.u8 i)) = 0
    · right
      refine ⟨fun h' => h'.1 h, ?_⟩
      have : (Toprf.evaluate G ⟨Py.u8 i, B32.ofZ (f.eval (point (Py.u8 i)))⟩ (enc P) (Py.u8 i)
          (([4, 2, 1] : List ℤ).map Py.u8) Py.zeroShare).1 ≠ 0 := fun h' => (hsucc.1 h').1 h
      unfold checked
      dsimp only
      rw [if_pos this]
      rfl
    · have : ¬ (Toprf.evaluate G ⟨Py.u8 i, B32.ofZ (f.eval (point (Py.u8 i)))⟩ (enc P) (Py.u8 i)
          (([4, 2, 1] : List ℤ).map Py.u8) Py.zeroShare).1 ≠ 0 := not_not.2 (hsucc.2 ⟨h, hP⟩)
      unfold checked
      dsimp only
      rw [if_neg this, ret_bind]
      rcases weighted_real P hP f l (fun j hj => hl j (List.mem_cons_of_mem _ hj)) with ⟨h1, ss, h2, h3⟩ | ⟨h1, h2⟩
      · left
        refine ⟨⟨h, h1⟩, (Toprf.evaluate G ⟨Py.u8 i, B32.ofZ (f.eval (point (Py.u8 i)))⟩ (enc P) (Py.u8 i)
          (([4, 2, 1] : List ℤ).map Py.u8) Py.zeroShare).2 :: ss, by rw [List.length_cons, h2, List.length_cons], ?_⟩
        rw [h3, ret_bind]
        rfl
      · right
        refine ⟨fun h' => h1 h'.2, ?_⟩
        rw [h2]
        rfl

/-- The test with any function in place of `threshold_combine`. -/
theorem tcombine_any (comb : List Bytes → Run Bytes) (k r : B32) (a : ℕ → B32) (hk : RandomScalar k) (hr : RandomScalar r)
    (hH : Spec.hashToGroup G Oprf.sha PyTests.input ≠ 0)
    (hc : ∀ ss : List Share, ss.length = 3 → ∃ b, comb (ss.map pack) = .ret b) :
    (sharing k.val a 1 ≠ 0 ∧ sharing k.val a 2 ≠ 0 ∧ sharing k.val a 4 ≠ 0 →
      testTcombine { real G junk scratch with thresholdCombine := comb } k a r = .ret ()) ∧
    (¬ (sharing k.val a 1 ≠ 0 ∧ sharing k.val a 2 ≠ 0 ∧ sharing k.val a 4 ≠ 0) →
      testTcombine { real G junk scratch with thresholdCombine := comb } k a r = .raised) := by
  set H := Spec.hashToGroup G Oprf.sha PyTests.input with hHd
  have hm : maskedVal k = k.val := maskedVal_canonical hk.1
  have hkg : (real G junk scratch).keygen k = .ret k.toList := rfl
  have hP : r.val • H ≠ 0 := smul_ne_zero hr.val_ne hH
  have hkH : k.val • H ≠ 0 := smul_ne_zero hk.val_ne hH
  have hcond : (sharing k.val a 1 ≠ 0 ∧ sharing k.val a 2 ≠ 0 ∧ sharing k.val a 4 ≠ 0) ↔
      ∀ i ∈ ([4, 2, 1] : List ℤ), (dealPoly k.val 3 a).eval (point (Py.u8 i)) ≠ 0 := by
    simp only [dealPoly_sharing, List.forall_mem_cons]
    exact ⟨fun ⟨h1, h2, h4⟩ => ⟨h4, h2, h1, by simp⟩, fun ⟨h4, h2, h1, _⟩ => ⟨h1, h2, h4⟩⟩
  rw [hcond]
  have hw : ∀ ss al ixs l, weighted { real G junk scratch with thresholdCombine := comb } ss al ixs l =
      weighted (real G junk scratch) ss al ixs l := by
    intro ss al ixs l
    induction l with
    | nil => rfl
    | cons i l ih => simp only [weighted, ih]
  unfold testTcombine
  dsimp only
  rw [hkg, ret_bind, real_create G junk scratch a k hk.1, ret_bind,
    real_blind G junk scratch PyTests.input (by decide) r hr hH, ret_bind]
  dsimp only
  rw [hw]
  rcases weighted_real G junk scratch (r.val • H) hP (dealPoly k.val 3 a) [4, 2, 1] (by decide) with ⟨h1, ss, hl, h2⟩ | ⟨h1, h2⟩
  · refine ⟨fun _ => ?_, fun h => absurd h1 h⟩
    obtain ⟨b, hb⟩ := hc ss hl
    rw [h2, ret_bind, hb, ret_bind, real_evaluate_enc, hm, if_neg (smul_ne_zero hk.val_ne hP), ret_bind, smul_comm k.val,
      real_unblind G junk scratch r hr _ hkH, ret_bind, ret_bind]
    exact if_pos rfl
  · refine ⟨fun h => absurd h h1, fun _ => ?_⟩
    rw [h2]
    rfl

/-- **C96, `test_toprf_tcombine`.** The test passes exactly if the shares 1, 2 and 4 are not 0 and raises an exception
otherwise. -/
theorem C96_tcombine (k r : B32) (a : ℕ → B32) (hk : RandomScalar k) (hr : RandomScalar r)
    (hH : Spec.hashToGroup G Oprf.sha PyTests.input ≠ 0) :
    (sharing k.val a 1 ≠ 0 ∧ sharing k.val a 2 ≠ 0 ∧ sharing k.val a 4 ≠ 0 →
      testTcombine (real G junk scratch) k a r = .ret ()) ∧
    (¬ (sharing k.val a 1 ≠ 0 ∧ sharing k.val a 2 ≠ 0 ∧ sharing k.val a 4 ≠ 0) →
      testTcombine (real G junk scratch) k a r = .raised) := by
  refine tcombine_any G junk scratch (real G junk scratch).thresholdCombine k r a hk hr hH fun ss hl => ?_
  rw [real_combine, thresholdcombine_eq G ss zero32 (by omega) (by omega)]
  exact ⟨_, rfl⟩

/-- **C96, negation: `test_toprf_tcombine` does not test `threshold_combine`.** The result of `threshold_combine` is
overwritten before it is used. The test passes as well with any function that returns any bytes. -/
theorem C96_tcombine_violated (wrong : List Bytes → Bytes) (k r : B32) (a : ℕ → B32) (hk : RandomScalar k)
    (hr : RandomScalar r) (hH : Spec.hashToGroup G Oprf.sha PyTests.input ≠ 0)
    (ha : sharing k.val a 1 ≠ 0 ∧ sharing k.val a 2 ≠ 0 ∧ sharing k.val a 4 ≠ 0) :
    testTcombine { real G junk scratch with thresholdCombine := fun l => .ret (wrong l) } k a r = .ret () :=
  (tcombine_any G junk scratch (fun l => .ret (wrong l)) k r a hk hr hH fun _ _ => ⟨_, rfl⟩).1 ha

/-! ## 3hashTDH -/

/-- The response of shareholder `i` with shares of the key and of 0: `Q` is the point of the session. -/
noncomputable def response (k : ZMod L) (a z : ℕ → B32) (P Q : G) (i : ℕ) : G := sharing k a i • P + sharing 0 z i • Q

/-- When the responses of all five can be computed. -/
def AllDefined (k : ZMod L) (a z : ℕ → B32) (Q : G) : Prop :=
  Q ≠ 0 ∧ ∀ i, 1 ≤ i → i ≤ 5 → sharing k a i ≠ 0 ∧ sharing 0 z i ≠ 0

open Classical in
/-- What a loop over the shareholders makes of the shares if the body works as it should. -/
theorem zipRun_real (f : Bytes → Bytes → Run Bytes) (k : ZMod L) (a z : ℕ → B32) (P Q : G)
    (hf : ∀ i : UInt8, f (pack ⟨i, B32.ofZ ((dealPoly k 3 a).eval (point i))⟩) (pack ⟨i, B32.ofZ ((dealPoly 0 3 z).eval (point i))⟩) =
      if Q ≠ 0 ∧ sharing k a i.toNat ≠ 0 ∧ sharing 0 z i.toNat ≠ 0 then .ret (pack ⟨i, enc (response G k a z P Q i.toNat)⟩)
      else .raised) : ∀ l : List UInt8,
    ((∀ i ∈ l, Q ≠ 0 ∧ sharing k a i.toNat ≠ 0 ∧ sharing 0 z i.toNat ≠ 0) ∧
      zipRun f ((l.map fun i => (⟨i, B32.ofZ ((dealPoly k 3 a).eval (point i))⟩ : Share)).map pack)
        ((l.map fun i => (⟨i, B32.ofZ ((dealPoly 0 3 z).eval (point i))⟩ : Share)).map pack) =
        .ret ((l.map fun i => (⟨i, enc (response G k a z P Q i.toNat)⟩ : Share)).map pack)) ∨
    (¬ (∀ i ∈ l, Q ≠ 0 ∧ sharing k a i.toNat ≠ 0 ∧ sharing 0 z i.toNat ≠ 0) ∧
      zipRun f ((l.map fun i => (⟨i, B32.ofZ ((dealPoly k 3 a).eval (point i))⟩ : Share)).map pack)
        ((l.map fun i => (⟨i, B32.ofZ ((dealPoly 0 3 z).eval (point i))⟩ : Share)).map pack) = .raised)
  | [] => Or.inl ⟨by simp, rfl⟩
  | i :: l => by
    simp only [List.map_cons, zipRun, hf]
    rw [List.forall_mem_cons]
    by_cases h : Q ≠ 0 ∧ sharing k a i.toNat ≠ 0 ∧ sharing 0 z i.toNat ≠ 0
    · rw [if_pos h, ret_bind]
      rcases zipRun_real f k a z P Q hf l with ⟨h1, h2⟩ | ⟨h1, h2⟩
      · left
        rw [h2, ret_bind]
        exact ⟨⟨h, h1⟩, rfl⟩
      · right
        rw [h2]
        exact ⟨fun h' => h1 h'.2, rfl⟩
    · right
      rw [if_neg h]
      exact ⟨fun h' => h h'.1, rfl⟩

theorem allDefined_iff (k : ZMod L) (a z : ℕ → B32) (Q : G) :
    AllDefined G k a z Q ↔ ∀ i ∈ ([1, 2, 3, 4, 5] : List UInt8), Q ≠ 0 ∧ sharing k a i.toNat ≠ 0 ∧ sharing 0 z i.toNat ≠ 0 := by
  rw [forall_five (p := fun i => Q ≠ 0 ∧ sharing k a i ≠ 0 ∧ sharing 0 z i ≠ 0)]
  exact ⟨fun h i h1 h5 => ⟨h.1, h.2 i h1 h5⟩, fun h => ⟨(h 1 (by omega) (by omega)).1, fun i h1 h5 => (h i h1 h5).2⟩⟩

theorem tenTimes_ret (lib : Lib) (r Nt0 : Bytes) (betas : List Bytes) (b : Bytes)
    (h1 : lib.thresholdmult (betas.take 3) = .ret b) (h2 : lib.unblind r b = .ret Nt0) :
    ∀ m, tenTimes lib r Nt0 betas m = .ret ()
  | 0 => rfl
  | m + 1 => by
    unfold tenTimes
    rw [h1, ret_bind, h2, ret_bind]
    unfold assertEqual
    rw [if_pos rfl, ret_bind, tenTimes_ret lib r Nt0 betas b h1 h2 m]

/-- The combination of the first three responses. -/
theorem combine_responses (k : ZMod L) (a z : ℕ → B32) (P Q : G) :
    ((∀ i, 1 ≤ i → i ≤ 3 → response G k a z P Q i ≠ 0) ∧
      thresholdmult G junk scratch (([1, 2, 3] : List UInt8).map fun i => ⟨i, enc (response G k a z P Q i.toNat)⟩) =
        .ok (0, enc (k • P))) ∨
    (¬ (∀ i, 1 ≤ i → i ≤ 3 → response G k a z P Q i ≠ 0) ∧
      ∃ x, thresholdmult G junk scratch (([1, 2, 3] : List UInt8).map fun i => ⟨i, enc (response G k a z P Q i.toNat)⟩) =
        .ok (1, x)) := by
  obtain ⟨p, rfl⟩ := exists_smul_base P
  obtain ⟨q, rfl⟩ := exists_smul_base Q
  set f : (ZMod L)[X] := dealPoly k 3 a * Polynomial.C p + dealPoly 0 3 z * Polynomial.C q with hf
  have hev : ∀ x : ZMod L, f.eval x = (dealPoly k 3 a).eval x * p + (dealPoly 0 3 z).eval x * q := by
    intro x; simp [hf]
  have hresp : ∀ i : UInt8, response G k a z (p • (base : G)) (q • (base : G)) i.toNat = f.eval (point i) • (base : G) := by
    intro i
    unfold response
    rw [hev, dealPoly_sharing, dealPoly_sharing, smul_smul, smul_smul, add_smul]
  have hC : ∀ (g : (ZMod L)[X]) (c : ZMod L), (g * Polynomial.C c).degree ≤ g.degree := fun g c =>
    (degree_mul_le_of_le le_rfl degree_C_le).trans (by rw [add_zero])
  have hdeg : f.degree < (3 : ℕ) := by
    refine lt_of_le_of_lt (degree_add_le _ _) (max_lt ?_ ?_)
    · exact lt_of_le_of_lt (hC _ _) (dealPoly_degree _ 3 (by decide) a)
    · exact lt_of_le_of_lt (hC _ _) (dealPoly_degree _ 3 (by decide) z)
  by_cases h : ∀ i, 1 ≤ i → i ≤ 3 → response G k a z (p • (base : G)) (q • (base : G)) i ≠ 0
  · left
    refine ⟨h, ?_⟩
    rw [thresholdmult_recovers G junk scratch _ f base (by simp) (by simp) (by simp) (by simpa using hdeg)]
    · rw [hev, dealPoly_three, dealPoly_three, smul_smul]
      congr 3
      ring
    · intro s hs
      obtain ⟨i, hi, rfl⟩ := List.mem_map.1 hs
      have : 1 ≤ i.toNat ∧ i.toNat ≤ 3 := (by decide : ∀ i ∈ ([1, 2, 3] : List UInt8), 1 ≤ i.toNat ∧ i.toNat ≤ 3) i hi
      refine ⟨by rw [← hresp], ?_⟩
      rw [← hresp]
      exact h _ this.1 this.2
  · right
    refine ⟨h, ?_⟩
    push_neg at h
    obtain ⟨i, h1, h3, h0⟩ := h
    refine C15_thresholdmult_rejects G junk scratch _ ⟨UInt8.ofNat i, enc (response G k a z (p • (base : G)) (q • (base : G)) i)⟩ ?_
      (.inr (by rw [h0, dec_enc]))
    have : i = 1 ∨ i = 2 ∨ i = 3 := by omega
    rcases this with rfl | rfl | rfl <;> simp

open Classical in
/-- The two tests with a body `f` that works as it should, and with any `thresholdmult` that agrees with the function of the
library on responses of shareholders 1, 2 and 3 in this order. -/
theorem test3hash_any (mult : List Bytes → Run Bytes)
    (hmult : ∀ u v w : B32, mult [pack ⟨1, u⟩, pack ⟨2, v⟩, pack ⟨3, w⟩] =
      (real G junk scratch).thresholdmult [pack ⟨1, u⟩, pack ⟨2, v⟩, pack ⟨3, w⟩])
    (f : Bytes → Bytes → Bytes → Bytes → Run Bytes) (k r ssid : B32) (a z : ℕ → B32) (hk : RandomScalar k)
    (hr : RandomScalar r) (hH : Spec.hashToGroup G Oprf.sha PyTests.input ≠ 0) (Q : G)
    (hf : ∀ i : UInt8, f (enc (r.val • Spec.hashToGroup G Oprf.sha PyTests.input)).toList ssid.toList
        (pack ⟨i, B32.ofZ ((dealPoly k.val 3 a).eval (point i))⟩) (pack ⟨i, B32.ofZ ((dealPoly 0 3 z).eval (point i))⟩) =
      if Q ≠ 0 ∧ sharing k.val a i.toNat ≠ 0 ∧ sharing 0 z i.toNat ≠ 0 then
        .ret (pack ⟨i, enc (response G k.val a z (r.val • Spec.hashToGroup G Oprf.sha PyTests.input) Q i.toNat)⟩)
      else .raised) :
    (AllDefined G k.val a z Q ∧
      (∀ i, 1 ≤ i → i ≤ 3 → response G k.val a z (r.val • Spec.hashToGroup G Oprf.sha PyTests.input) Q i ≠ 0) →
      test3hash { real G junk scratch with thresholdmult := mult } f k a z r ssid = .ret ()) ∧
    (¬ (AllDefined G k.val a z Q ∧
      (∀ i, 1 ≤ i → i ≤ 3 → response G k.val a z (r.val • Spec.hashToGroup G Oprf.sha PyTests.input) Q i ≠ 0)) →
      test3hash { real G junk scratch with thresholdmult := mult } f k a z r ssid = .raised) := by
  set H := Spec.hashToGroup G Oprf.sha PyTests.input with hHd
  have hm : maskedVal k = k.val := maskedVal_canonical hk.1
  have hkg : (real G junk scratch).keygen k = .ret k.toList := rfl
  have hP : r.val • H ≠ 0 := smul_ne_zero hr.val_ne hH
  have hkH : k.val • H ≠ 0 := smul_ne_zero hk.val_ne hH
  have hz0 : (zero32 : B32).val = 0 := by simp
  rw [allDefined_iff]
  unfold test3hash
  dsimp only
  rw [hkg, ret_bind, real_create G junk scratch a k hk.1, ret_bind,
    real_create G junk scratch z zero32 (by rw [zero32_eq]; exact B32.canonical_ofZ _), ret_bind, hz0,
    real_blind G junk scratch PyTests.input (by decide) r hr hH, ret_bind]
  dsimp only
  rcases zipRun_real G (f (enc (r.val • H)).toList ssid.toList) k.val a z (r.val • H) Q hf [1, 2, 3, 4, 5] with
    ⟨h1, h2⟩ | ⟨h1, h2⟩
  · rw [h2, ret_bind, real_evaluate_enc, hm, if_neg (smul_ne_zero hk.val_ne hP), ret_bind, smul_comm k.val,
      real_unblind G junk scratch r hr _ hkH, ret_bind]
    have ht : mult (((([1, 2, 3, 4, 5] : List UInt8).map fun i =>
        (⟨i, enc (response G k.val a z (r.val • H) Q i.toNat)⟩ : Share)).map pack).take 3) =
        checked Vector.toList (.reached (thresholdmult G junk scratch (([1, 2, 3] : List UInt8).map fun i =>
          ⟨i, enc (response G k.val a z (r.val • H) Q i.toNat)⟩))) := by
      have e := hmult (enc (response G k.val a z (r.val • H) Q 1)) (enc (response G k.val a z (r.val • H) Q 2))
        (enc (response G k.val a z (r.val • H) Q 3))
      have e2 := real_thresholdmult G junk scratch (([1, 2, 3] : List UInt8).map fun i =>
            ⟨i, enc (response G k.val a z (r.val • H) Q i.toNat)⟩)
      exact e.trans e2
    rcases combine_responses G junk scratch k.val a z (r.val • H) Q with ⟨h3, h4⟩ | ⟨h3, x, h4⟩
    · refine ⟨fun _ => ?_, fun h => absurd ⟨h1, h3⟩ h⟩
      rw [h4] at ht
      refine tenTimes_ret _ _ _ _ (enc (k.val • r.val • H)).toList ht ?_ 10
      show (real G junk scratch).unblind _ _ = _
      rw [smul_comm k.val, real_unblind G junk scratch r hr _ hkH]
    · refine ⟨fun h => absurd h.2 h3, fun _ => ?_⟩
      rw [h4] at ht
      unfold tenTimes
      dsimp only
      rw [ht]
      rfl
  · refine ⟨fun h => absurd h.1 h1, fun _ => ?_⟩
    rw [h2]
    rfl

/-- The point of the session in `test_explicit_3hashtdh`: `from_hash(generichash(ssid_S + alpha))`. -/
def explicitPoint (r ssid : B32) : G :=
  fromHash (Hashes.generichash64 (ssid.toList ++ (enc (r.val • Spec.hashToGroup G Oprf.sha PyTests.input)).toList))

/-- The point of the session in `test_native_3hashtdh`, as in C19: the hash of the generic hash, with a length prefix. -/
noncomputable def nativePoint (r ssid : B32) : G :=
  Spec.hashToGroup G Oprf.sha (Hashes.generichash64
    ([0, 32] ++ ssid.toList ++ (enc (r.val • Spec.hashToGroup G Oprf.sha PyTests.input)).toList)).toList

open Classical in
theorem explicitPart_real (mult : List Bytes → Run Bytes) (k ssid r : B32) (a z : ℕ → B32) (hr : RandomScalar r)
    (hH : Spec.hashToGroup G Oprf.sha PyTests.input ≠ 0) (i : UInt8) :
    explicitPart G { real G junk scratch with thresholdmult := mult }
      (enc (r.val • Spec.hashToGroup G Oprf.sha PyTests.input)).toList ssid.toList
        (pack ⟨i, B32.ofZ ((dealPoly k.val 3 a).eval (point i))⟩) (pack ⟨i, B32.ofZ ((dealPoly 0 3 z).eval (point i))⟩) =
      if explicitPoint G r ssid ≠ 0 ∧ sharing k.val a i.toNat ≠ 0 ∧ sharing 0 z i.toNat ≠ 0 then
        .ret (pack ⟨i, enc (response G k.val a z (r.val • Spec.hashToGroup G Oprf.sha PyTests.input)
          (explicitPoint G r ssid) i.toNat)⟩)
      else .raised := by
  have hP : r.val • Spec.hashToGroup G Oprf.sha PyTests.input ≠ 0 := smul_ne_zero hr.val_ne hH
  have e : ∀ s : Share, (pack s).drop 1 = s.value.toList := fun s => rfl
  have e2 : fromHashBytes G (Hashes.generichash64 (ssid.toList ++ (enc (r.val • Spec.hashToGroup G Oprf.sha PyTests.input)).toList)) =
    enc (explicitPoint G r ssid) := rfl
  unfold explicitPart
  dsimp only
  rw [e, e, e2, real_evaluate_enc, real_evaluate_enc, maskedVal_ofZ, maskedVal_ofZ, dealPoly_sharing, dealPoly_sharing]
  by_cases h1 : sharing 0 z i.toNat • explicitPoint G r ssid = 0
  · rw [if_pos h1]
    refine Eq.trans (b := Run.raised) rfl (if_neg ?_).symm
    rintro ⟨h2, -, h3⟩
    exact smul_ne_zero h3 h2 h1
  rw [if_neg h1, ret_bind]
  have h1' : sharing 0 z i.toNat ≠ 0 ∧ explicitPoint G r ssid ≠ 0 :=
    ⟨fun h => h1 (by rw [h, zero_smul]), fun h => h1 (by rw [h, smul_zero])⟩
  by_cases h2 : sharing k.val a i.toNat = 0
  · rw [if_pos (by rw [h2, zero_smul])]
    exact Eq.trans (b := Run.raised) rfl (if_neg fun h => h.2.1 h2).symm
  rw [if_neg (smul_ne_zero h2 hP), ret_bind, if_pos ⟨h1'.2, h2, h1'.1⟩]
  unfold sodiumAdd
  rw [toB32_toList, toB32_toList, pointAdd_enc]
  rfl

open Classical in
theorem nativePart_real (k ssid r : B32) (a z : ℕ → B32) (hr : RandomScalar r)
    (hH : Spec.hashToGroup G Oprf.sha PyTests.input ≠ 0) (i : UInt8) :
    (real G junk scratch).hash3tdh (pack ⟨i, B32.ofZ ((dealPoly k.val 3 a).eval (point i))⟩)
        (pack ⟨i, B32.ofZ ((dealPoly 0 3 z).eval (point i))⟩)
        (enc (r.val • Spec.hashToGroup G Oprf.sha PyTests.input)).toList ssid.toList =
      if nativePoint G r ssid ≠ 0 ∧ sharing k.val a i.toNat ≠ 0 ∧ sharing 0 z i.toNat ≠ 0 then
        .ret (pack ⟨i, enc (response G k.val a z (r.val • Spec.hashToGroup G Oprf.sha PyTests.input)
          (nativePoint G r ssid) i.toNat)⟩)
      else .raised := by
  have hP : r.val • Spec.hashToGroup G Oprf.sha PyTests.input ≠ 0 := smul_ne_zero hr.val_ne hH
  have hh : ∀ p0, Oprf.hashToGroup G true (Hashes.generichash64 (beBytes 2 (32 : UInt16).toNat ++ ssid.toList ++
      (enc (r.val • Spec.hashToGroup G Oprf.sha PyTests.input)).toList)).toList 64 p0 = .ok (0, enc (nativePoint G r ssid)) := by
    intro p0
    have := C03_hash_to_group G (Hashes.generichash64 (beBytes 2 (32 : UInt16).toNat ++ ssid.toList ++
      (enc (r.val • Spec.hashToGroup G Oprf.sha PyTests.input)).toList)).toList (by simp) p0
    rw [Vector.length_toList] at this
    exact this
  have ht : (ssid.toList ++ [0]).take (32 : UInt16).toNat = ssid.toList := List.take_left' (by simp)
  rw [real_hash3tdh]
  unfold Toprf.hash3tdh
  dsimp only
  unfold Oprf.evaluate
  rw [scalarmult_enc, maskedVal_ofZ, dealPoly_sharing]
  by_cases h2 : sharing k.val a i.toNat = 0
  · rw [if_pos (by rw [h2, zero_smul, enc_zero, if_pos rfl]; decide)]
    exact Eq.trans (b := Run.raised) rfl (if_neg fun h => h.2.1 h2).symm
  rw [if_neg (by rw [if_neg (by rw [enc_eq_zero]; exact smul_ne_zero h2 hP)]; exact fun h => h rfl), rd_ok (by simp), C.ok_bind,
    List.drop_zero, ht, hh, C.ok_bind]
  dsimp only
  rw [if_neg (by decide), scalarmult_enc, maskedVal_ofZ, dealPoly_sharing]
  by_cases h1 : sharing 0 z i.toNat • nativePoint G r ssid = 0
  · rw [if_pos (by rw [h1, enc_zero, if_pos rfl]; decide)]
    refine Eq.trans (b := Run.raised) rfl (if_neg ?_).symm
    rintro ⟨h2, -, h3⟩
    exact smul_ne_zero h3 h2 h1
  have h1' : sharing 0 z i.toNat ≠ 0 ∧ nativePoint G r ssid ≠ 0 :=
    ⟨fun h => h1 (by rw [h, zero_smul]), fun h => h1 (by rw [h, smul_zero])⟩
  rw [if_neg (by rw [if_neg (by rwa [enc_eq_zero])]; exact fun h => h rfl), pointAdd_enc]
  exact Eq.trans rfl (if_pos ⟨h1'.2, h2, h1'.1⟩).symm

/-- **C96, `test_explicit_3hashtdh`.** The test never fails on its assertion. It passes exactly if the responses of all five
shareholders can be computed and none of the first three is the identity, and raises an exception otherwise. -/
theorem C96_explicit (k r ssid : B32) (a z : ℕ → B32) (hk : RandomScalar k) (hr : RandomScalar r)
    (hH : Spec.hashToGroup G Oprf.sha PyTests.input ≠ 0) :
    (AllDefined G k.val a z (explicitPoint G r ssid) ∧ (∀ i, 1 ≤ i → i ≤ 3 →
        response G k.val a z (r.val • Spec.hashToGroup G Oprf.sha PyTests.input) (explicitPoint G r ssid) i ≠ 0) →
      testExplicit G (real G junk scratch) k a z r ssid = .ret ()) ∧
    (¬ (AllDefined G k.val a z (explicitPoint G r ssid) ∧ (∀ i, 1 ≤ i → i ≤ 3 →
        response G k.val a z (r.val • Spec.hashToGroup G Oprf.sha PyTests.input) (explicitPoint G r ssid) i ≠ 0)) →
      testExplicit G (real G junk scratch) k a z r ssid = .raised) :=
  test3hash_any G junk scratch (real G junk scratch).thresholdmult (fun _ _ _ => rfl) _ k r ssid a z hk hr hH _
    (explicitPart_real G junk scratch (real G junk scratch).thresholdmult k ssid r a z hr hH)

/-- **C96, `test_native_3hashtdh`.** As for the explicit test, with the point that the C function computes. -/
theorem C96_native (k r ssid : B32) (a z : ℕ → B32) (hk : RandomScalar k) (hr : RandomScalar r)
    (hH : Spec.hashToGroup G Oprf.sha PyTests.input ≠ 0) :
    (AllDefined G k.val a z (nativePoint G r ssid) ∧ (∀ i, 1 ≤ i → i ≤ 3 →
        response G k.val a z (r.val • Spec.hashToGroup G Oprf.sha PyTests.input) (nativePoint G r ssid) i ≠ 0) →
      testNative (real G junk scratch) k a z r ssid = .ret ()) ∧
    (¬ (AllDefined G k.val a z (nativePoint G r ssid) ∧ (∀ i, 1 ≤ i → i ≤ 3 →
        response G k.val a z (r.val • Spec.hashToGroup G Oprf.sha PyTests.input) (nativePoint G r ssid) i ≠ 0)) →
      testNative (real G junk scratch) k a z r ssid = .raised) :=
  test3hash_any G junk scratch (real G junk scratch).thresholdmult (fun _ _ _ => rfl) _ k r ssid a z hk hr hH _
    (nativePart_real G junk scratch k ssid r a z hr hH)

/-- **C96, negation: the tests of 3hashTDH combine only one set of responses.** The loop over `combinations(betas, 3)` does not
use its variable. Any function in place of `thresholdmult` that is right for the responses of shareholders 1, 2 and 3 in
this order passes both tests, however wrong it is for all other sets. -/
theorem C96_combinations_violated (mult : List Bytes → Run Bytes)
    (hmult : ∀ u v w : B32, mult [pack ⟨1, u⟩, pack ⟨2, v⟩, pack ⟨3, w⟩] =
      (real G junk scratch).thresholdmult [pack ⟨1, u⟩, pack ⟨2, v⟩, pack ⟨3, w⟩])
    (k r ssid : B32) (a z : ℕ → B32) (hk : RandomScalar k) (hr : RandomScalar r)
    (hH : Spec.hashToGroup G Oprf.sha PyTests.input ≠ 0) :
    testExplicit G { real G junk scratch with thresholdmult := mult } k a z r ssid =
      testExplicit G (real G junk scratch) k a z r ssid ∧
    testNative { real G junk scratch with thresholdmult := mult } k a z r ssid =
      testNative (real G junk scratch) k a z r ssid := by
  constructor
  · have h1 := test3hash_any G junk scratch mult hmult _ k r ssid a z hk hr hH _
      (explicitPart_real G junk scratch mult k ssid r a z hr hH)
    have h2 := C96_explicit G junk scratch k r ssid a z hk hr hH
    by_cases h : AllDefined G k.val a z (explicitPoint G r ssid) ∧ (∀ i, 1 ≤ i → i ≤ 3 →
        response G k.val a z (r.val • Spec.hashToGroup G Oprf.sha PyTests.input) (explicitPoint G r ssid) i ≠ 0)
    · exact (h1.1 h).trans (h2.1 h).symm
    · exact (h1.2 h).trans (h2.2 h).symm
  · have h1 := test3hash_any G junk scratch mult hmult
      (fun alpha ssid k z => (real G junk scratch).hash3tdh k z alpha ssid) k r ssid a z hk hr hH _
      (nativePart_real G junk scratch k ssid r a z hr hH)
    have h2 := C96_native G junk scratch k r ssid a z hk hr hH
    by_cases h : AllDefined G k.val a z (nativePoint G r ssid) ∧ (∀ i, 1 ≤ i → i ≤ 3 →
        response G k.val a z (r.val • Spec.hashToGroup G Oprf.sha PyTests.input) (nativePoint G r ssid) i ≠ 0)
    · exact (h1.1 h).trans (h2.1 h).symm
    · exact (h1.2 h).trans (h2.2 h).symm

/-! ## What the tests notice -/

theorem unblind_wrong (r : B32) (hr : RandomScalar r) (w N : G) (hw : w ≠ 0) (hne : w ≠ r.val • N) :
    ∃ b, (real G junk scratch).unblind r.toList (enc w).toList = .ret b ∧ b ≠ (enc N).toList := by
  have h0 : (r.val)⁻¹ • w ≠ 0 := smul_ne_zero (inv_ne_zero hr.val_ne) hw
  have e : r.val • (r.val)⁻¹ • w = w := by rw [smul_smul, mul_inv_cancel₀ hr.val_ne, one_smul]
  have h := real_unblind G junk scratch r hr _ h0
  rw [e] at h
  refine ⟨_, h, fun h' => hne ?_⟩
  rw [← enc_injective (Vector.toList_inj.1 h'), e]

/-- **C96, `test_toprf_sss` notices a wrong `thresholdmult`.** With a function that never returns the right element, the
assertion fails. -/
theorem C96_sss_detects (w : List Bytes → G) (k r : B32) (a : ℕ → B32) (hk : RandomScalar k) (hr : RandomScalar r)
    (hH : Spec.hashToGroup G Oprf.sha PyTests.input ≠ 0)
    (hw : ∀ l, w l ≠ 0 ∧ w l ≠ k.val • r.val • Spec.hashToGroup G Oprf.sha PyTests.input)
    (ha : ∀ i, 1 ≤ i → i ≤ 5 → sharing k.val a i ≠ 0) :
    testSss { real G junk scratch with thresholdmult := fun l => .ret (enc (w l)).toList } k a r = .failed := by
  set H := Spec.hashToGroup G Oprf.sha PyTests.input with hHd
  have hm : maskedVal k = k.val := maskedVal_canonical hk.1
  have hkg : (real G junk scratch).keygen k = .ret k.toList := rfl
  have hP : r.val • H ≠ 0 := smul_ne_zero hr.val_ne hH
  have hkH : k.val • H ≠ 0 := smul_ne_zero hk.val_ne hH
  have hpart : ∀ al l, partials { real G junk scratch with thresholdmult := fun l => .ret (enc (w l)).toList } al l =
      partials (real G junk scratch) al l := by
    intro al l
    induction l with
    | nil => rfl
    | cons i l ih => simp only [partials, ih]
  rw [← forall_five] at ha
  simp only [← dealPoly_sharing] at ha
  unfold testSss
  dsimp only
  rw [hkg, ret_bind, real_create G junk scratch a k hk.1, ret_bind,
    real_blind G junk scratch PyTests.input (by decide) r hr hH, ret_bind]
  dsimp only
  rw [hpart]
  rcases partials_real G junk scratch (r.val • H) hP (dealPoly k.val 3 a) [1, 2, 3, 4, 5] with ⟨h1, h2⟩ | ⟨h1, h2⟩
  · rw [h2, ret_bind, ret_bind]
    choose b hb hne using fun l : List Bytes =>
      unblind_wrong G junk scratch r hr (w l) (k.val • H) (hw l).1 (by rw [smul_comm]; exact (hw l).2)
    rw [hb, ret_bind, real_evaluate_enc, hm, if_neg (smul_ne_zero hk.val_ne hP),
      ret_bind, smul_comm k.val, real_unblind G junk scratch r hr _ hkH, ret_bind]
    exact if_neg (Ne.symm (hne _))
  · exact absurd ha h1

open Classical in
theorem test3hash_detects (w : List Bytes → G) (f : Bytes → Bytes → Bytes → Bytes → Run Bytes) (k r ssid : B32)
    (a z : ℕ → B32) (hk : RandomScalar k) (hr : RandomScalar r) (hH : Spec.hashToGroup G Oprf.sha PyTests.input ≠ 0) (Q : G)
    (hf : ∀ i : UInt8, f (enc (r.val • Spec.hashToGroup G Oprf.sha PyTests.input)).toList ssid.toList
        (pack ⟨i, B32.ofZ ((dealPoly k.val 3 a).eval (point i))⟩) (pack ⟨i, B32.ofZ ((dealPoly 0 3 z).eval (point i))⟩) =
      if Q ≠ 0 ∧ sharing k.val a i.toNat ≠ 0 ∧ sharing 0 z i.toNat ≠ 0 then
        .ret (pack ⟨i, enc (response G k.val a z (r.val • Spec.hashToGroup G Oprf.sha PyTests.input) Q i.toNat)⟩)
      else .raised)
    (hw : ∀ l, w l ≠ 0 ∧ w l ≠ k.val • r.val • Spec.hashToGroup G Oprf.sha PyTests.input)
    (ha : AllDefined G k.val a z Q) :
    test3hash { real G junk scratch with thresholdmult := fun l => .ret (enc (w l)).toList } f k a z r ssid = .failed := by
  set H := Spec.hashToGroup G Oprf.sha PyTests.input with hHd
  have hm : maskedVal k = k.val := maskedVal_canonical hk.1
  have hkg : (real G junk scratch).keygen k = .ret k.toList := rfl
  have hP : r.val • H ≠ 0 := smul_ne_zero hr.val_ne hH
  have hkH : k.val • H ≠ 0 := smul_ne_zero hk.val_ne hH
  have hz0 : (zero32 : B32).val = 0 := by simp
  rw [allDefined_iff] at ha
  unfold test3hash
  dsimp only
  rw [hkg, ret_bind, real_create G junk scratch a k hk.1, ret_bind,
    real_create G junk scratch z zero32 (by rw [zero32_eq]; exact B32.canonical_ofZ _), ret_bind, hz0,
    real_blind G junk scratch PyTests.input (by decide) r hr hH, ret_bind]
  dsimp only
  rcases zipRun_real G (f (enc (r.val • H)).toList ssid.toList) k.val a z (r.val • H) Q hf [1, 2, 3, 4, 5] with
    ⟨h1, h2⟩ | ⟨h1, h2⟩
  · rw [h2, ret_bind, real_evaluate_enc, hm, if_neg (smul_ne_zero hk.val_ne hP), ret_bind, smul_comm k.val,
      real_unblind G junk scratch r hr _ hkH, ret_bind]
    unfold tenTimes
    dsimp only
    rw [ret_bind]
    choose b hb hne using fun l : List Bytes =>
      unblind_wrong G junk scratch r hr (w l) (k.val • H) (hw l).1 (by rw [smul_comm]; exact (hw l).2)
    rw [hb, ret_bind]
    unfold assertEqual
    rw [if_neg (Ne.symm (hne _))]
    rfl
  · exact absurd ha h1

/-- **C96, the tests of 3hashTDH notice a `thresholdmult` that is always wrong.** -/
theorem C96_3hash_detects (w : List Bytes → G) (k r ssid : B32) (a z : ℕ → B32) (hk : RandomScalar k) (hr : RandomScalar r)
    (hH : Spec.hashToGroup G Oprf.sha PyTests.input ≠ 0)
    (hw : ∀ l, w l ≠ 0 ∧ w l ≠ k.val • r.val • Spec.hashToGroup G Oprf.sha PyTests.input) :
    (AllDefined G k.val a z (explicitPoint G r ssid) →
      testExplicit G { real G junk scratch with thresholdmult := fun l => .ret (enc (w l)).toList } k a z r ssid = .failed) ∧
    (AllDefined G k.val a z (nativePoint G r ssid) →
      testNative { real G junk scratch with thresholdmult := fun l => .ret (enc (w l)).toList } k a z r ssid = .failed) :=
  ⟨fun h => test3hash_detects G junk scratch w _ k r ssid a z hk hr hH _
      (explicitPart_real G junk scratch (fun l => .ret (enc (w l)).toList) k ssid r a z hr hH) hw h,
    fun h => test3hash_detects G junk scratch w
      (fun alpha ssid k z => (real G junk scratch).hash3tdh k z alpha ssid) k r ssid a z hk hr hH _
      (nativePart_real G junk scratch k ssid r a z hr hH) hw h⟩

end

/-! ## Examples -/

section Toy
attribute [local instance] Ristretto.toy Toy.hashes

/-- The scalar 1. -/
noncomputable def unit : B32 := B32.ofZ ((1 : ℕ) : ZMod L)

theorem unit_random : RandomScalar unit := Toy.randomScalar _ (by norm_num) (by norm_num)

theorem unit_val : unit.val = 1 := by unfold unit; rw [B32.val_ofZ, Nat.cast_one]

theorem unit_sharing (s x : ℕ) (h0 : s + x + x ^ 2 ≠ 0) (h : s + x + x ^ 2 < 2 ^ 252) : sharing s (fun _ => unit) x ≠ 0 := by
  have := Toy.natCast_ne_zero h0 h
  push_cast at this
  unfold sharing
  rwa [unit_val, mul_one, mul_one]

/-- All draws are 1: the shares of the key are 3, 7, 13, 21 and 31. -/
theorem unit_shares (x : ℕ) (h5 : x ≤ 5) : sharing unit.val (fun _ => unit) x ≠ 0 := by
  have h2 : x ^ 2 ≤ 5 ^ 2 := Nat.pow_le_pow_left h5 2
  have := unit_sharing 1 x (by omega) (by omega)
  rwa [Nat.cast_one, ← unit_val] at this

theorem unit_defined (Q : ZMod L) (hQ : Q = 1) : AllDefined (ZMod L) unit.val (fun _ => unit) (fun _ => unit) Q := by
  refine ⟨by rw [hQ]; exact one_ne_zero, fun i h1 h5 => ⟨unit_shares i h5, ?_⟩⟩
  have h2 : i ^ 2 ≤ 5 ^ 2 := Nat.pow_le_pow_left h5 2
  have := unit_sharing 0 i (by omega) (by omega)
  rwa [Nat.cast_zero] at this

theorem unit_response (G : Type) [Ristretto G] (P Q : G) (hP : P = Q) (hQ : Q ≠ 0) (i : ℕ) (h3 : i ≤ 3) :
    response G unit.val (fun _ => unit) (fun _ => unit) (unit.val • P) Q i ≠ 0 := by
  have h2 : i ^ 2 ≤ 3 ^ 2 := Nat.pow_le_pow_left h3 2
  have := Toy.natCast_ne_zero (n := 1 + 2 * i + 2 * i ^ 2) (by omega) (by omega)
  unfold response sharing
  rw [hP, unit_val, one_smul, ← add_smul]
  refine smul_ne_zero ?_ hQ
  push_cast at this
  convert this using 1
  ring

theorem unit_ne (G : Type) [Ristretto G] (w P : G) (h : w ≠ P) : w ≠ unit.val • unit.val • P := by
  rwa [unit_val, one_smul, one_smul]

theorem unit_explicit : explicitPoint (ZMod L) unit zero32 = 1 := by
  have : leNat (Vector.ofFn fun i : Fin 64 => if i.1 = 0 then (1 : UInt8) else 0).toList = 1 := by decide +kernel
  exact (congrArg (fun n : ℕ => (n : ZMod L)) this).trans Nat.cast_one

/-- The tests of the OPRF. -/
example : testCfrg (real (ZMod L) 0 zero32) unit unit unit = .ret () :=
  C96_cfrg (ZMod L) 0 zero32 _ _ _ unit_random unit_random unit_random (Toy.hashToGroup_ne _)

example : testUpdate (ZMod L) (real (ZMod L) 0 zero32) unit unit unit unit = .ret () :=
  C96_update (ZMod L) 0 zero32 _ _ _ _ unit_random unit_random unit_random unit_random (Toy.hashToGroup_ne _)

/-- A vector that is not the right one. -/
example : testVector (real (ZMod L) 0 zero32) [0] unit.toList [] unit = .failed := by
  rw [C96_vector (ZMod L) 0 zero32 [0] [] (by decide) unit unit (by
    rw [maskedVal_canonical unit_random.1]; exact unit_random.val_ne) unit_random (Toy.hashToGroup_ne _), if_neg]
  intro h
  have := congrArg List.length h
  simp [Spec.oprf, Oprf.sha] at this

/-- The tests of the sharings pass if all draws are 1. -/
example : testSss (real (ZMod L) 0 zero32) unit (fun _ => unit) unit = .ret () :=
  (C96_sss (ZMod L) 0 zero32 _ _ _ unit_random unit_random (Toy.hashToGroup_ne _)).1 fun i _ h5 => unit_shares i h5

example : testTcombine (real (ZMod L) 0 zero32) unit (fun _ => unit) unit = .ret () :=
  (C96_tcombine (ZMod L) 0 zero32 _ _ _ unit_random unit_random (Toy.hashToGroup_ne _)).1
    ⟨unit_shares 1 (by decide), unit_shares 2 (by decide), unit_shares 4 (by decide)⟩

example : testTcombine { real (ZMod L) 0 zero32 with thresholdCombine := fun _ => .ret [] } unit (fun _ => unit) unit = .ret () :=
  C96_tcombine_violated (ZMod L) 0 zero32 (fun _ => []) _ _ _ unit_random unit_random (Toy.hashToGroup_ne _)
    ⟨unit_shares 1 (by decide), unit_shares 2 (by decide), unit_shares 4 (by decide)⟩

/-- The coefficients `L - 1` and 0: the share of the first shareholder is 0. -/
example : testSss (real (ZMod L) 0 zero32) unit (fun k => if k = 0 then B32.ofZ (-1) else zero32) unit = .raised := by
  refine (C96_sss (ZMod L) 0 zero32 _ _ _ unit_random unit_random (Toy.hashToGroup_ne _)).2 fun h => ?_
  refine h 1 (by decide) (by decide) ?_
  have hz0 : (zero32 : B32).val = 0 := by simp
  show unit.val + ((1 : ℕ) : ZMod L) * (B32.ofZ (-1)).val + ((1 : ℕ) : ZMod L) ^ 2 * (zero32 : B32).val = 0
  rw [unit_val, B32.val_ofZ, hz0]
  simp

/-- The tests of 3hashTDH. -/
example : testExplicit (ZMod L) (real (ZMod L) 0 zero32) unit (fun _ => unit) (fun _ => unit) unit zero32 = .ret () :=
  (C96_explicit (ZMod L) 0 zero32 _ _ _ _ _ unit_random unit_random (Toy.hashToGroup_ne _)).1
    ⟨unit_defined _ unit_explicit, fun i _ h3 => unit_response (ZMod L) _ _ (by rw [Toy.hashToGroup_eq, unit_explicit])
      (by rw [unit_explicit]; exact one_ne_zero) i h3⟩

example : testNative (real (ZMod L) 0 zero32) unit (fun _ => unit) (fun _ => unit) unit zero32 = .ret () :=
  (C96_native (ZMod L) 0 zero32 _ _ _ _ _ unit_random unit_random (Toy.hashToGroup_ne _)).1
    ⟨unit_defined _ (Toy.hashToGroup_eq _), fun i _ h3 => unit_response (ZMod L) _ _
      (by rw [Toy.hashToGroup_eq, Toy.hashToGroup_eq]) (Toy.hashToGroup_ne _) i h3⟩

/-- A `thresholdmult` that raises an exception for all other sets passes. -/
example : ∃ mult : List Bytes → Run Bytes, mult [pack ⟨1, zero32⟩, pack ⟨2, zero32⟩, pack ⟨4, zero32⟩] = .raised ∧
    testNative { real (ZMod L) 0 zero32 with thresholdmult := mult } unit (fun _ => unit) (fun _ => unit) unit zero32 = .ret () := by
  refine ⟨fun l => if l.map (·.take 1) = [[1], [2], [3]] then (real (ZMod L) 0 zero32).thresholdmult l else .raised, rfl, ?_⟩
  rw [(C96_combinations_violated (ZMod L) 0 zero32 _ (fun u v w => if_pos rfl) _ _ _ _ _ unit_random unit_random
    (Toy.hashToGroup_ne _)).2]
  exact (C96_native (ZMod L) 0 zero32 _ _ _ _ _ unit_random unit_random (Toy.hashToGroup_ne _)).1
    ⟨unit_defined _ (Toy.hashToGroup_eq _), fun i _ h3 => unit_response (ZMod L) _ _
      (by rw [Toy.hashToGroup_eq, Toy.hashToGroup_eq]) (Toy.hashToGroup_ne _) i h3⟩

/-- A `thresholdmult` that is always wrong. -/
example : testSss { real (ZMod L) 0 zero32 with thresholdmult := fun _ => .ret (enc (2 : ZMod L)).toList } unit (fun _ => unit)
    unit = .failed := by
  have h2 : (2 : ZMod L) ≠ 0 := Toy.natCast_ne_zero (n := 2) (by decide) (by norm_num)
  have h1 : (2 : ZMod L) ≠ 1 := fun h => one_ne_zero (α := ZMod L) (by linear_combination h)
  exact C96_sss_detects (ZMod L) 0 zero32 (fun _ => 2) _ _ _ unit_random unit_random (Toy.hashToGroup_ne _)
    (fun _ => ⟨h2, unit_ne (ZMod L) _ _ (by rw [Toy.hashToGroup_eq]; exact h1)⟩) fun i _ h5 => unit_shares i h5

example : testNative { real (ZMod L) 0 zero32 with thresholdmult := fun _ => .ret (enc (2 : ZMod L)).toList } unit (fun _ => unit)
    (fun _ => unit) unit zero32 = .failed := by
  have h2 : (2 : ZMod L) ≠ 0 := Toy.natCast_ne_zero (n := 2) (by decide) (by norm_num)
  have h1 : (2 : ZMod L) ≠ 1 := fun h => one_ne_zero (α := ZMod L) (by linear_combination h)
  exact (C96_3hash_detects (ZMod L) 0 zero32 (fun _ => 2) _ _ _ _ _ unit_random unit_random (Toy.hashToGroup_ne _)
    (fun _ => ⟨h2, unit_ne (ZMod L) _ _ (by rw [Toy.hashToGroup_eq]; exact h1)⟩)).2 (unit_defined _ (Toy.hashToGroup_eq _))

end Toy

end Verif.Props
