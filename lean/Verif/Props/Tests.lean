import Verif.Model.Tests
import Verif.Props.Mpmult
import Verif.Proofs.Toy

/-!
# Property C87: the test programs `/repo/src/tests/toprf.c`, `mpmult.c` (multiplication) and `dkg.c`
-/

set_option linter.unusedSectionVars false

namespace Verif.Props

open Ristretto Spec Polynomial Verif.Mpmult Verif.Tests Verif.Toprf

variable (G : Type) [Ristretto G]

theorem dealPoly_two (s : ZMod L) (c : ℕ → B32) (x : ZMod L) : (dealPoly s 2 c).eval x = s + x * (c 0).val := by
  simp [dealPoly, polyOf, mul_comm x]

theorem dealPoly_degree (s : ZMod L) (t : ℕ) (ht : 1 ≤ t) (c : ℕ → B32) : (dealPoly s t c).degree < (t : ℕ) := by
  have := polyOf_degree (s :: ((List.range (t - 1)).map fun j => (c j).val))
  have e : (s :: ((List.range (t - 1)).map fun j => (c j).val)).length = t := by simp; omega
  rwa [e] at this

section
variable [Hashes]

theorem evaluateAll_eq (scratch : B32) (P : G) (hP : P ≠ 0) (f : (ZMod L)[X]) : ∀ l : List UInt8,
    ((∀ i ∈ l, f.eval (point i) ≠ 0) ∧
      evaluateAll G scratch (enc P) (l.map fun i => ⟨i, B32.ofZ (f.eval (point i))⟩) =
        some (l.map fun i => ⟨i, enc (f.eval (point i) • P)⟩)) ∨
    ((∃ i ∈ l, f.eval (point i) = 0) ∧
      evaluateAll G scratch (enc P) (l.map fun i => ⟨i, B32.ofZ (f.eval (point i))⟩) = none)
  | [] => Or.inl ⟨by simp, rfl⟩
  | i :: l => by
    simp only [List.map_cons, evaluateAll, Oprf.evaluate, scalarmult_enc, maskedVal_ofZ, List.forall_mem_cons,
      List.exists_mem_cons_iff]
    by_cases h : f.eval (point i) = 0
    · right
      refine ⟨Or.inl h, ?_⟩
      rw [if_pos (by rw [h, zero_smul, enc_zero, if_pos rfl]; decide)]
    · have hne : f.eval (point i) • P ≠ 0 := smul_ne_zero h hP
      rw [if_neg (by rw [if_neg (by rwa [enc_eq_zero])]; decide)]
      rcases evaluateAll_eq scratch P hP f l with ⟨h1, h2⟩ | ⟨h1, h2⟩
      · left
        refine ⟨⟨h, h1⟩, ?_⟩
        rw [h2, Option.map_some]
      · right
        refine ⟨Or.inr h1, ?_⟩
        rw [h2, Option.map_none]

theorem output_some (scratch : B32) (junk64 : B64) (r : B32) (hr : RandomScalar r)
    (hH : Spec.hashToGroup G Oprf.sha password ≠ 0) (k : ZMod L) (hk : k ≠ 0) :
    ∃ y, output G scratch junk64 r (enc (k • r.val • Spec.hashToGroup G Oprf.sha password)) = .ok (some y) ∧
      y.toList = Spec.oprf G Oprf.sha k password := by
  obtain ⟨N, y, h1, h2, h3⟩ := unblind_finalize G password (by decide) r hr k hk hH scratch junk64
  refine ⟨y, ?_, h3⟩
  have h2' : Oprf.finalize true password 8 N junk64 = .ok (0, y) := h2
  unfold output
  rw [h1]
  simp only [ne_eq, not_true_eq_false, if_false]
  rw [h2', C.ok_bind]
  simp

/-- **C87, toprf.c.** For every key, coefficient and blinding scalar that libsodium can draw: the program never reports
that the outputs differ. It succeeds exactly if none of the three shares is 0. -/
theorem C87_toprf (junk : UInt8) (scratch : B32) (junk64 : B64) (k rnd : B32) (a : ℕ → B32) (hk : RandomScalar k)
    (hr : RandomScalar rnd) (hH : Spec.hashToGroup G Oprf.sha password ≠ 0) :
    ((∀ i : ℕ, 1 ≤ i → i ≤ 3 → k.val + i * (a 0).val ≠ 0) → toprf G junk scratch junk64 k a rnd = .ok .success) ∧
    (¬ (∀ i : ℕ, 1 ≤ i → i ≤ 3 → k.val + i * (a 0).val ≠ 0) → toprf G junk scratch junk64 k a rnd = .ok .error) := by
  set f := dealPoly k.val 2 a with hf
  set P := rnd.val • Spec.hashToGroup G Oprf.sha password with hPdef
  have hP : P ≠ 0 := smul_ne_zero hr.val_ne hH
  have hcs : createShares k 3 2 a (List.replicate 3 ⟨junk, scratch⟩) =
      .ok (([1, 2, 3] : List UInt8).map fun i => (⟨i, B32.ofZ (f.eval (point i))⟩ : Share)) := by
    have h := createShares_shares k (NoOverflow.of_canonical hk.1) 3 2 a (List.replicate 3 ⟨junk, scratch⟩) (by decide)
      (by decide) List.length_replicate.ge
    rw [List.drop_of_length_le (by rw [List.length_replicate]; decide), List.append_nil] at h
    exact h
  have hb : Oprf.blind G true scratch password 8 rnd scratch scratch = .ok (0, rnd, enc P) :=
    blind_eq G password (by decide) rnd hr hH scratch scratch scratch
  have hmem : (∀ i ∈ ([1, 2, 3] : List UInt8), f.eval (point i) ≠ 0) ↔
      ∀ i : ℕ, 1 ≤ i → i ≤ 3 → k.val + i * (a 0).val ≠ 0 := by
    simp only [hf, dealPoly_two, List.forall_mem_cons, point]
    constructor
    · rintro ⟨h1, h2, h3, -⟩ i hi1 hi3
      have : i = 1 ∨ i = 2 ∨ i = 3 := by omega
      rcases this with rfl | rfl | rfl
      · exact h1
      · exact h2
      · exact h3
    · intro h
      exact ⟨h 1 (by decide) (by decide), h 2 (by decide) (by decide), h 3 (by decide) (by decide), by simp⟩
  have hf0 : f.eval 0 = k.val := by rw [hf, dealPoly_two, zero_mul, add_zero]
  rw [← hmem]
  unfold toprf
  rw [hcs, C.ok_bind, hb, C.ok_bind]
  simp only [ne_eq, not_true_eq_false, if_false]
  rcases evaluateAll_eq G scratch P hP f [1, 2, 3] with ⟨hn, he⟩ | ⟨⟨i, hi, hz⟩, he⟩
  swap
  · refine ⟨fun h => absurd hz (h i hi), fun _ => ?_⟩
    rw [he]
  refine ⟨fun _ => ?_, fun h => absurd hn h⟩
  rw [he]
  have n1 : f.eval (point 1) ≠ 0 := hn 1 (by simp)
  have n3 : f.eval (point 3) ≠ 0 := hn 3 (by simp)
  have hdeg : f.degree < (2 : ℕ) := dealPoly_degree _ 2 (by decide) a
  have hmul : thresholdmult G junk scratch [⟨3, enc (f.eval (point 3) • P)⟩, ⟨1, enc (f.eval (point 1) • P)⟩] =
      .ok (0, enc (k.val • P)) := by
    rw [thresholdmult_recovers G junk scratch [⟨3, enc (f.eval (point 3) • P)⟩, ⟨1, enc (f.eval (point 1) • P)⟩] f P
      (by simp) (by simp) (by simp) hdeg ?_, hf0]
    intro r hr'
    simp only [List.mem_cons, List.not_mem_nil, or_false] at hr'
    rcases hr' with rfl | rfl
    · exact ⟨rfl, smul_ne_zero n3 hP⟩
    · exact ⟨rfl, smul_ne_zero n1 hP⟩
  obtain ⟨y, hy, -⟩ := output_some G scratch junk64 rnd hr hH k.val hk.val_ne
  rw [← hPdef] at hy
  have hsm : scalarmult G (enc (k.val • P)) k (enc P) = (0, enc (k.val • P)) := by
    rw [scalarmult_enc_ok, maskedVal_canonical hk.1]
    rw [maskedVal_canonical hk.1]
    exact smul_ne_zero hk.val_ne hP
  simp only [List.map_cons, List.map_nil]
  rw [ld_ok (by simp), C.ok_bind, ld_ok (by simp), C.ok_bind]
  simp only [List.getElem_cons_succ, List.getElem_cons_zero]
  rw [hmul, C.ok_bind]
  simp only [not_true_eq_false, if_false]
  rw [hy, C.ok_bind, hsm]
  simp only [not_true_eq_false, if_false]
  rw [hy, C.ok_bind]
  simp only [not_true_eq_false, if_false]
  -- second half
  set s1 : Share := ⟨1, B32.ofZ (f.eval (point 1))⟩ with hs1
  set s2 : Share := ⟨2, B32.ofZ (f.eval (point 2))⟩ with hs2
  set s3 : Share := ⟨3, B32.ofZ (f.eval (point 3))⟩ with hs3
  have ev : ∀ (s : Share) (i : UInt8) (v : B32), s = ⟨i, B32.ofZ (f.eval (point i))⟩ → f.eval (point i) ≠ 0 →
      (Toprf.evaluate G s (enc P) i [3, 1] ⟨i, v⟩).1 = 0 := by
    rintro s i v rfl hi
    exact (C16_evaluate_succeeds G ⟨i, B32.ofZ (f.eval (point i))⟩ P ⟨i, v⟩ [3, 1] (by decide)).2
      ⟨by rwa [B32.val_ofZ], hP⟩
  unfold toprfWeighted
  have hw : ∀ p1 p2 p3 : Share, weightedAll G (enc P) [s1, s2, s3] [p1, p2, p3] [3, 1] [3, 1] =
      .ok (some [(Toprf.evaluate G s3 (enc P) 3 [3, 1] ⟨3, p1.value⟩).2,
        (Toprf.evaluate G s1 (enc P) 1 [3, 1] ⟨1, p2.value⟩).2]) := by
    intro p1 p2 p3
    have l1 : ld [s1, s2, s3] ((3 : UInt8).toNat - 1) = .ok s3 := rfl
    have l2 : ld [p1, p2, p3] (([3, 1] : List UInt8).length - (([1] : List UInt8).length + 1)) = .ok p1 := rfl
    have l3 : ld [s1, s2, s3] ((1 : UInt8).toNat - 1) = .ok s1 := rfl
    have l4 : ld [p1, p2, p3] (([3, 1] : List UInt8).length - (([] : List UInt8).length + 1)) = .ok p2 := rfl
    rw [weightedAll, l1, C.ok_bind, l2, C.ok_bind]
    dsimp only
    rw [if_neg (by rw [ev s3 3 _ rfl n3]; decide)]
    rw [weightedAll, l3, C.ok_bind, l4, C.ok_bind]
    dsimp only
    rw [if_neg (by rw [ev s1 1 _ rfl n1]; decide)]
    rw [weightedAll]
    rfl
  rw [hw, C.ok_bind]
  simp only
  have hc : ∀ (v1 v2 r0 : B32), thresholdcombine G [(Toprf.evaluate G s3 (enc P) 3 [3, 1] ⟨3, v1⟩).2,
      (Toprf.evaluate G s1 (enc P) 1 [3, 1] ⟨1, v2⟩).2] r0 = .ok (0, enc (k.val • P)) := by
    intro v1 v2 r0
    have hon : ∀ s ∈ [s3, s1], OnPoly f s := by
      intro s hs
      simp only [List.mem_cons, List.not_mem_nil, or_false] at hs
      rcases hs with rfl | rfl
      · exact ⟨B32.canonical_ofZ _, B32.val_ofZ _⟩
      · exact ⟨B32.canonical_ofZ _, B32.val_ofZ _⟩
    have := C16_evaluate_combine G f [s3, s1] P (fun s => ⟨s.index, v1⟩) r0 (by simp) (by simp [hs1, hs3])
      (by simp [hs1, hs3]) hdeg hon [3, 1] (List.Perm.refl _) (fun s => s.index)
    rw [hf0] at this
    rw [← this]
    simp only [List.map_cons, List.map_nil, C16_evaluate_output, hs1, hs3]
  rw [hc, C.ok_bind]
  simp only [not_true_eq_false, if_false]
  rw [hy, C.ok_bind]
  simp

end

/-! ## mpmult.c -/

/-- The slope of the product's sharing. -/
noncomputable def mulSlope (fd : ℕ → ℕ → B32) : ZMod L :=
  ((List.range 5).map fun i => lagrange [1, 2, 3, 4, 5] (UInt8.ofNat (i + 1)) * (fd i 0).val).sum

theorem dealAll_eq (junk : UInt8) (scratch : B32) (peers threshold : UInt8)
    (g : Share × Share × (ℕ → B32) → List Share) : ∀ l : List (Share × Share × (ℕ → B32)),
    (∀ d ∈ l, mulStart d.1 d.2.1 peers threshold d.2.2 (List.replicate peers.toNat ⟨junk, scratch⟩) = .ok (0, g d)) →
    dealAll junk scratch peers threshold l = .ok (some (l.map g))
  | [], _ => rfl
  | d :: l, h => by
    rw [dealAll, h d (by simp), C.ok_bind]
    simp only [ne_eq, not_true_eq_false, if_false]
    rw [dealAll_eq junk scratch peers threshold g l (fun d' h' => h d' (by simp [h'])), C.ok_bind]
    rfl

theorem mapM_ld {α : Type} (i : ℕ) (d0 : α) : ∀ l : List (List α), (∀ d ∈ l, i < d.length) →
    (l.mapM fun d => ld d i) = .ok (l.map fun d => d.getD i d0)
  | [], _ => rfl
  | d :: l, h => by
    have h0 : i < d.length := h d (by simp)
    rw [List.mapM_cons, ld_ok h0, mapM_ld i d0 l (fun d' h' => h d' (by simp [h']))]
    simp [h0]

theorem finishAll_eq (scratch : B32) (indexes : List UInt8) (deals : List (List Share)) (g : ℕ → Share) : ∀ m i : ℕ,
    (∀ j, i ≤ j → j < i + m → ∃ shares, (deals.mapM fun d => ld d j) = .ok shares ∧
      mulFinish scratch (indexes.zip shares) (UInt8.ofNat (j + 1)) = .ok (g j)) →
    finishAll scratch indexes deals m i = .ok ((List.range' i m).map g)
  | 0, _, _ => rfl
  | m + 1, i, h => by
    obtain ⟨shares, h1, h2⟩ := h i le_rfl (by omega)
    rw [finishAll, h1, C.ok_bind, h2, C.ok_bind, finishAll_eq scratch indexes deals g m (i + 1)
      (fun j a b => h j (by omega) (by omega))]
    rfl

theorem reconAll_eq (sharesP : List Share) (k0k1 : B32) (threshold : ℕ) : ∀ m i : ℕ,
    (∀ j, i ≤ j → j < i + m → ∃ s, rd sharesP j threshold = .ok s ∧ Dkg.reconstruct s = .ok k0k1) →
    reconAll sharesP k0k1 threshold m i = .ok .success
  | 0, _, _ => rfl
  | m + 1, i, h => by
    obtain ⟨s, h1, h2⟩ := h i le_rfl (by omega)
    rw [reconAll, h1, C.ok_bind, h2, C.ok_bind]
    simp only [ne_eq, not_true_eq_false, if_false]
    exact reconAll_eq sharesP k0k1 threshold m (i + 1) (fun j a b => h j (by omega) (by omega))

/-- **C87, mpmult.c.** For every pair of secrets, every exponent and all coefficients: `test_mpmul` never reports a wrong
product. It succeeds exactly if the shares of the product that it evaluates, those of peers 1 and 3, are not 0. -/
theorem C87_mpmul (junk : UInt8) (scratch k0 k1 r : B32) (f0 f1 : ℕ → B32) (fd : ℕ → ℕ → B32) (h0 : RandomScalar k0)
    (h1 : RandomScalar k1) (hr : RandomScalar r) :
    ((k0.val * k1.val + mulSlope fd ≠ 0 ∧ k0.val * k1.val + 3 * mulSlope fd ≠ 0) →
      testMpmul G junk scratch k0 k1 r f0 f1 fd = .ok .success) ∧
    (¬ (k0.val * k1.val + mulSlope fd ≠ 0 ∧ k0.val * k1.val + 3 * mulSlope fd ≠ 0) →
      testMpmul G junk scratch k0 k1 r f0 f1 fd = .ok .error) := by
  set h : (ZMod L)[X] := polyOf [k0.val * k1.val, mulSlope fd] with hh
  have hev : ∀ x, h.eval x = k0.val * k1.val + x * mulSlope fd := by
    intro x; simp [hh, polyOf, mul_comm x]
  have hdeg : h.degree < (2 : ℕ) := polyOf_degree _
  -- the sharings
  have hcs : ∀ (s : B32) (hs : s.Canonical) (c : ℕ → B32), createShares s 10 2 c (List.replicate 10 ⟨junk, scratch⟩) =
      .ok ((List.range' 1 10).map fun k =>
        (⟨UInt8.ofNat k, B32.ofZ ((dealPoly s.val 2 c).eval (point (UInt8.ofNat k)))⟩ : Share)) := by
    intro s hs c
    have h := createShares_shares s (NoOverflow.of_canonical hs) 10 2 c (List.replicate 10 ⟨junk, scratch⟩) (by decide)
      (by decide) List.length_replicate.ge
    rw [List.drop_of_length_le (by rw [List.length_replicate]; decide), List.append_nil] at h
    exact h
  set out := List.replicate 10 (⟨junk, scratch⟩ : Share) with hout
  -- the dealers
  set D : List (Share × Share × (ℕ → B32)) := (List.range 5).map fun i =>
    ((⟨UInt8.ofNat (i + 1), B32.ofZ (k0.val + (i + 1 : ℕ) * (f0 0).val)⟩ : Share),
      (⟨UInt8.ofNat (i + 1), B32.ofZ (k1.val + (i + 1 : ℕ) * (f1 0).val)⟩ : Share), fd i) with hD
  have hgetD : ∀ (s : ZMod L) (c : ℕ → B32) (i : ℕ), i < 5 → ((List.range' 1 10).map fun k =>
      (⟨UInt8.ofNat k, B32.ofZ ((dealPoly s 2 c).eval (point (UInt8.ofNat k)))⟩ : Share)).getD i ⟨0, zero32⟩ =
      ⟨UInt8.ofNat (i + 1), B32.ofZ (s + (i + 1 : ℕ) * (c 0).val)⟩ := by
    intro s c i hi
    rw [List.getD_eq_getElem?_getD, List.getElem?_map, List.getElem?_range' (by omega), Option.map_some, Option.getD_some,
      dealPoly_two, one_mul, add_comm 1 i, point, UInt8.toNat_ofNat', Nat.mod_eq_of_lt (by norm_num; omega)]
  have hDeq : ((List.range 5).map fun i =>
      (((List.range' 1 10).map fun k =>
        (⟨UInt8.ofNat k, B32.ofZ ((dealPoly k0.val 2 f0).eval (point (UInt8.ofNat k)))⟩ : Share)).getD i ⟨0, zero32⟩,
      ((List.range' 1 10).map fun k =>
        (⟨UInt8.ofNat k, B32.ofZ ((dealPoly k1.val 2 f1).eval (point (UInt8.ofNat k)))⟩ : Share)).getD i ⟨0, zero32⟩,
      fd i)) = D := by
    apply List.map_congr_left
    intro i hi
    rw [List.mem_range] at hi
    rw [hgetD _ _ i hi, hgetD _ _ i hi]
  set g : Share × Share × (ℕ → B32) → List Share := fun d => (List.range' 1 10).map fun k =>
    (⟨UInt8.ofNat k, B32.ofZ (d.1.value.val * d.2.1.value.val + (k : ℕ) * (d.2.2 0).val)⟩ : Share) with hg
  have hdeal : dealAll junk scratch 10 2 D = .ok (some (D.map g)) := by
    apply dealAll_eq
    intro d hd
    rw [hD, List.mem_map] at hd
    obtain ⟨i, hi, rfl⟩ := hd
    unfold mulStart
    rw [if_neg]
    · have e : List.replicate (10 : UInt8).toNat (⟨junk, scratch⟩ : Share) = out := rfl
      rw [e, hcs _ (scalarMul_canonical _ _), C.ok_bind, hg]
      congr 2
      apply List.map_congr_left
      intro k hk
      rw [List.mem_range'_1] at hk
      rw [dealPoly_two, scalarMul_eq, B32.val_ofZ, point, UInt8.toNat_ofNat', Nat.mod_eq_of_lt (by norm_num; omega)]
    · rintro (h' | h' | h')
      · exact h' rfl
      · exact absurd h' (by decide)
      · exact absurd h' (by decide)
  -- the shares of the product
  set p : ℕ → Share := fun j => ⟨UInt8.ofNat (j + 1), B32.ofZ (h.eval ((j + 1 : ℕ) : ZMod L))⟩ with hp
  have hidx : D.map (·.1.index) = [1, 2, 3, 4, 5] := rfl
  have hfin : finishAll scratch [1, 2, 3, 4, 5] (D.map g) 10 0 = .ok ((List.range' 0 10).map p) := by
    apply finishAll_eq
    intro j _ hj
    refine ⟨_, mapM_ld j ⟨0, zero32⟩ _ (by
      intro d hd
      rw [List.mem_map] at hd
      obtain ⟨d', _, rfl⟩ := hd
      simp only [hg, List.length_map, List.length_range']
      omega), ?_⟩
    have hz : ([1, 2, 3, 4, 5] : List UInt8).zip ((D.map g).map fun d => d.getD j ⟨0, zero32⟩) =
        D.map fun d => (d.1.index, (⟨UInt8.ofNat (j + 1),
          B32.ofZ (d.1.value.val * d.2.1.value.val + (j + 1 : ℕ) * (d.2.2 0).val)⟩ : Share)) := by
      rw [← hidx, List.map_map (f := g), List.zip_map']
      apply List.map_congr_left
      intro d _
      simp only [Function.comp, Prod.map, id, hg]
      congr 1
      rw [List.getD_eq_getElem?_getD, List.getElem?_map, List.getElem?_range' (by omega), Option.map_some,
        Option.getD_some, one_mul, add_comm 1 j]
    rw [hz, mulFinish_eq scratch _ _ (by simp [hD]) (by rw [List.map_map]; exact (by decide : ([1, 2, 3, 4, 5] : List UInt8).Nodup))]
    have hm : (D.map fun d => (d.1.index, (⟨UInt8.ofNat (j + 1),
          B32.ofZ (d.1.value.val * d.2.1.value.val + (j + 1 : ℕ) * (d.2.2 0).val)⟩ : Share))).map (·.1) =
        [1, 2, 3, 4, 5] := by
      rw [List.map_map]; exact hidx
    rw [hm, List.map_map, hp]
    congr 3
    -- interpolation of the product
    set q : (ZMod L)[X] := polyOf [k0.val, (f0 0).val] * polyOf [k1.val, (f1 0).val] with hq
    have hqe : ∀ x, q.eval x = (k0.val + x * (f0 0).val) * (k1.val + x * (f1 0).val) := by
      intro x; simp [hq, polyOf, mul_comm x]
    have hqd : q.degree < (5 : ℕ) := by
      have d0 := polyOf_degree [k0.val, (f0 0).val]
      have d1 := polyOf_degree [k1.val, (f1 0).val]
      have a0 : (polyOf [k0.val, (f0 0).val]).degree ≤ (1 : ℕ) := by
        rw [degree_le_iff_coeff_zero]
        intro m hm
        exact (degree_lt_iff_coeff_zero _ _).1 d0 m (by exact_mod_cast hm)
      have a1 : (polyOf [k1.val, (f1 0).val]).degree ≤ (1 : ℕ) := by
        rw [degree_le_iff_coeff_zero]
        intro m hm
        exact (degree_lt_iff_coeff_zero _ _).1 d1 m (by exact_mod_cast hm)
      refine lt_of_le_of_lt (degree_mul_le_of_le a0 a1) ?_
      exact_mod_cast (by decide : 1 + 1 < 5)
    have hl := lagrange_sum [1, 2, 3, 4, 5] (by decide) q hqd
    rw [hqe, zero_mul, zero_mul, add_zero, add_zero] at hl
    rw [hev, ← hl, mulSlope, hD]
    simp only [List.range_succ_eq_map, List.range_zero, List.map_cons, List.map_nil, List.sum_cons, List.sum_nil,
      Function.comp, B32.val_ofZ, hqe, List.map_map, point]
    have e1 : UInt8.toNat 1 = 1 := rfl
    have e2 : UInt8.toNat 2 = 2 := rfl
    have e3 : UInt8.toNat 3 = 3 := rfl
    have e4 : UInt8.toNat 4 = 4 := rfl
    have e5 : UInt8.toNat 5 = 5 := rfl
    have u1 : UInt8.ofNat (0 + 1) = 1 := rfl
    have u2 : UInt8.ofNat (Nat.succ 0 + 1) = 2 := rfl
    have u3 : UInt8.ofNat (Nat.succ (Nat.succ 0) + 1) = 3 := rfl
    have u4 : UInt8.ofNat (Nat.succ (Nat.succ (Nat.succ 0)) + 1) = 4 := rfl
    have u5 : UInt8.ofNat (Nat.succ (Nat.succ (Nat.succ (Nat.succ 0))) + 1) = 5 := rfl
    simp only [e1, e2, e3, e4, e5, u1, u2, u3, u4, u5]
    push_cast
    ring
  -- what is checked at the end
  have hb : r.val • (base : G) ≠ 0 := smul_ne_zero hr.val_ne base_ne
  have hgr : (scalarmultBase G r).2 = enc (r.val • (base : G)) := by
    simp only [scalarmultBase, maskedVal_canonical hr.1]
  have hk : scalarMul k0 k1 = B32.ofZ (k0.val * k1.val) := scalarMul_eq _ _
  have hver : scalarmult G scratch (scalarMul k0 k1) (enc (r.val • (base : G))) =
      (0, enc ((k0.val * k1.val) • r.val • (base : G))) := by
    rw [hk, scalarmult_enc_ok, maskedVal_ofZ]
    rw [maskedVal_ofZ]
    exact smul_ne_zero (mul_ne_zero h0.val_ne h1.val_ne) hb
  have hlen : ((List.range' 0 10).map p).length = 10 := by simp
  have hld : ∀ j, j < 10 → ld ((List.range' 0 10).map p) j = .ok (p j) := by
    intro j hj
    rw [ld_ok (by omega)]
    simp
  have hq : ∀ j, h.eval ((j + 1 : ℕ) : ZMod L) ≠ 0 → scalarmult G scratch (p j).value (enc (r.val • (base : G))) =
      (0, enc (h.eval ((j + 1 : ℕ) : ZMod L) • r.val • (base : G))) := by
    intro j hj
    rw [hp, scalarmult_enc_ok, maskedVal_ofZ]
    rw [maskedVal_ofZ]
    exact smul_ne_zero hj hb
  have hq' : ∀ j, h.eval ((j + 1 : ℕ) : ZMod L) = 0 →
      (scalarmult G scratch (p j).value (enc (r.val • (base : G)))).1 ≠ 0 := by
    intro j hj
    rw [hp, scalarmult_enc, maskedVal_ofZ, hj, zero_smul, enc_zero, if_pos rfl]
    decide
  have e1 : h.eval ((0 + 1 : ℕ) : ZMod L) = k0.val * k1.val + mulSlope fd := by rw [hev]; push_cast; ring
  have e3 : h.eval ((2 + 1 : ℕ) : ZMod L) = k0.val * k1.val + 3 * mulSlope fd := by rw [hev]; push_cast; ring
  rw [← e1, ← e3]
  unfold testMpmul
  rw [hcs k0 h0.1, C.ok_bind, hcs k1 h1.1, C.ok_bind, hDeq, hdeal, C.ok_bind]
  simp only
  rw [hfin, C.ok_bind, hgr, hver]
  simp only [ne_eq, not_true_eq_false, if_false]
  rw [hld 0 (by decide), C.ok_bind]
  by_cases z1 : h.eval ((0 + 1 : ℕ) : ZMod L) = 0
  · refine ⟨fun hc => absurd z1 hc.1, fun _ => ?_⟩
    rw [if_pos (hq' 0 z1)]
  rw [if_neg (by rw [hq 0 z1]; simp), hld 2 (by decide), C.ok_bind]
  by_cases z3 : h.eval ((2 + 1 : ℕ) : ZMod L) = 0
  · refine ⟨fun hc => absurd z3 hc.2, fun _ => ?_⟩
    rw [if_pos (hq' 2 z3)]
  rw [if_neg (by rw [hq 2 z3]; simp)]
  refine ⟨fun _ => ?_, fun hc => absurd ⟨z1, z3⟩ hc⟩
  rw [hq 0 z1, hq 2 z3]
  have hmul := thresholdmult_recovers G junk scratch [⟨1, enc (h.eval ((0 + 1 : ℕ) : ZMod L) • r.val • (base : G))⟩,
    ⟨3, enc (h.eval ((2 + 1 : ℕ) : ZMod L) • r.val • (base : G))⟩] h (r.val • (base : G)) (by simp) (by simp) (by simp) hdeg
    (by
      intro s hs
      simp only [List.mem_cons, List.not_mem_nil, or_false] at hs
      rcases hs with rfl | rfl
      · exact ⟨rfl, smul_ne_zero z1 hb⟩
      · exact ⟨rfl, smul_ne_zero z3 hb⟩)
  rw [hmul, C.ok_bind]
  have hz0 : h.eval 0 = k0.val * k1.val := by rw [hev, zero_mul, add_zero]
  rw [hz0]
  simp only [not_true_eq_false, if_false]
  apply reconAll_eq
  intro j _ hj
  refine ⟨[p j, p (j + 1)], ?_, ?_⟩
  · rw [rd_ok (by omega)]
    congr 1
    apply List.ext_getElem?
    intro i
    rw [List.getElem?_take]
    rcases i with _ | _ | i
    · simp [List.getElem?_range' (show j < 10 by omega)]
    · simp [List.getElem?_range' (show j + 1 < 10 by omega)]
    · simp
  · have hne : (j + 1) % 256 ≠ (j + 1 + 1) % 256 := by omega
    rw [Dkg.reconstruct_recovers h [p j, p (j + 1)] (by simp) (by
        simp only [hp, List.map_cons, List.map_nil, List.nodup_cons, List.mem_singleton, List.not_mem_nil,
          not_false_eq_true, List.nodup_nil, and_true]
        intro hc
        exact hne (by simpa using congrArg UInt8.toNat hc)) hdeg (by
        have hpt : ∀ i, i < 11 → (p i).value.val = h.eval (point (p i).index) := by
          intro i hi
          rw [hp]
          simp only [B32.val_ofZ, point, UInt8.toNat_ofNat']
          rw [Nat.mod_eq_of_lt (by norm_num; omega)]
        intro s hs
        simp only [List.mem_cons, List.not_mem_nil, or_false] at hs
        rcases hs with rfl | rfl
        · exact hpt j (by omega)
        · exact hpt (j + 1) (by omega)), hz0, hk]

/-! ## dkg.c -/

/-- The sum of what the five dealers of tests/dkg.c deal at `x`. -/
noncomputable def keyAt (rnd : ℕ → ℕ → B32) (x : ZMod L) : ZMod L :=
  ((List.range 5).map fun i => (rnd i 0).val + x * (rnd i 1).val + x ^ 2 * (rnd i 2).val).sum

theorem startAll_eq (junk : UInt8) (scratch : B32) : ∀ rnds : List (ℕ → B32), (∀ rnd ∈ rnds, ∀ k, RandomScalar (rnd k)) →
    startAll G junk scratch rnds = .ok (some (rnds.map fun rnd =>
      ((List.range 3).map (fun k => enc ((rnd k).val • (base : G))),
        (List.range' 1 5).map fun k => Dkg.dealt 3 rnd (UInt8.ofNat k))))
  | [], _ => rfl
  | rnd :: l, h => by
    have hs := Dkg.start_eq G 5 3 rnd (List.replicate 3 scratch) (List.replicate 5 ⟨junk, scratch⟩) (by decide) (by decide)
      List.length_replicate.ge List.length_replicate.ge (h rnd (by simp) 0).1
    rw [List.drop_of_length_le (by rw [List.length_replicate]; decide),
      List.drop_of_length_le (by rw [List.length_replicate]; decide), List.append_nil, List.append_nil] at hs
    rw [startAll, hs, C.ok_bind]
    simp only [ne_eq, not_true_eq_false, if_false]
    rw [startAll_eq junk scratch l (fun r hr => h r (by simp [hr])), C.ok_bind, Option.map_some, List.map_cons]
    have e : (List.range (3 : UInt8).toNat).map (fun k => enc (maskedVal (rnd k) • (base : G))) =
        (List.range 3).map fun k => enc ((rnd k).val • (base : G)) := by
      apply List.map_congr_left
      intro k _
      rw [maskedVal_canonical (h rnd (by simp) k).1]
    rw [e]
    rfl

theorem honest_feldman (rnd : ℕ → B32) (self : UInt8) : feldmanOk G self
    ((List.range 3).map fun k => enc ((rnd k).val • (base : G))) (Dkg.dealt 3 rnd self) := by
  refine ⟨(List.range 3).map fun k => (rnd k).val • (base : G), by rw [List.map_map]; rfl, ?_⟩
  have := commitEval_smul G (point self) ((List.range 3).map fun k => (rnd k).val)
  rw [List.map_map] at this
  have e : (fun k => (rnd k).val • (base : G)) = (fun c : ZMod L => c • (base : G)) ∘ fun k => (rnd k).val := rfl
  rw [e, this, Dkg.dealt]
  simp only [maskedVal_ofZ]
  rfl

theorem receiveAll_eq (scratch : B32) (commitments : List (List B32)) (shares : List (List Share)) (g : ℕ → Share) :
    ∀ m i : ℕ, (∀ j, i ≤ j → j < i + m → ∃ sent v, (shares.mapM fun d => ld d j) = .ok sent ∧
      Dkg.verifyCommitments G scratch 5 3 (UInt8.ofNat (j + 1)) commitments sent (List.replicate 5 0) = .ok (0, v) ∧
      Dkg.finish 5 sent ⟨UInt8.ofNat (j + 1), scratch⟩ = .ok (g j)) →
    receiveAll G scratch commitments shares m i = .ok (some ((List.range' i m).map g))
  | 0, _, _ => rfl
  | m + 1, i, h => by
    obtain ⟨sent, v, h1, h2, h3⟩ := h i le_rfl (by omega)
    rw [receiveAll, h1, C.ok_bind, h2, C.ok_bind]
    simp only [ne_eq, not_true_eq_false, if_false]
    rw [h3, C.ok_bind, receiveAll_eq scratch commitments shares g m (i + 1) (fun j a b => h j (by omega) (by omega)),
      C.ok_bind]
    rfl

theorem combine3_eq (junk : UInt8) (scratch : B32) (f : (ZMod L)[X]) (hf : f.degree < (3 : ℕ)) (shares : List Share)
    (hs : shares = (List.range' 0 5).map fun j =>
      (⟨UInt8.ofNat (j + 1), B32.ofZ (f.eval ((j + 1 : ℕ) : ZMod L))⟩ : Share)) (i j k : ℕ) (hi : i < 5) (hj : j < 5)
    (hk : k < 5) (hij : i ≠ j) (hik : i ≠ k) (hjk : j ≠ k) :
    ((f.eval ((i + 1 : ℕ) : ZMod L) ≠ 0 ∧ f.eval ((j + 1 : ℕ) : ZMod L) ≠ 0 ∧ f.eval ((k + 1 : ℕ) : ZMod L) ≠ 0) ∧
      combine3 G junk scratch shares i j k = .ok (0, enc (f.eval 0 • (base : G)))) ∨
    (¬ (f.eval ((i + 1 : ℕ) : ZMod L) ≠ 0 ∧ f.eval ((j + 1 : ℕ) : ZMod L) ≠ 0 ∧ f.eval ((k + 1 : ℕ) : ZMod L) ≠ 0) ∧
      ∃ v, combine3 G junk scratch shares i j k = .ok (1, v)) := by
  have hld : ∀ i, i < 5 → ld shares i = .ok ⟨UInt8.ofNat (i + 1), B32.ofZ (f.eval ((i + 1 : ℕ) : ZMod L))⟩ := by
    intro i hi
    rw [hs, ld_ok (by simpa using hi)]
    simp
  have hpt : ∀ i, i < 5 → point (UInt8.ofNat (i + 1)) = ((i + 1 : ℕ) : ZMod L) := by
    intro i hi
    rw [point, UInt8.toNat_ofNat', Nat.mod_eq_of_lt (by norm_num; omega)]
  unfold combine3
  rw [hld i hi, C.ok_bind, hld j hj, C.ok_bind, hld k hk, C.ok_bind]
  simp only [topart, scalarmultBase, maskedVal_ofZ]
  by_cases hz : f.eval ((i + 1 : ℕ) : ZMod L) ≠ 0 ∧ f.eval ((j + 1 : ℕ) : ZMod L) ≠ 0 ∧
      f.eval ((k + 1 : ℕ) : ZMod L) ≠ 0
  · left
    refine ⟨hz, ?_⟩
    refine thresholdmult_recovers G junk scratch [_, _, _] f (base : G) (by simp) ?_ ?_ hf ?_
    rotate_left 2
    · intro s hs'
      simp only [List.mem_cons, List.not_mem_nil, or_false] at hs'
      rcases hs' with rfl | rfl | rfl
      · exact ⟨by simp only; rw [hpt i hi], by simp only; rw [hpt i hi]; exact smul_ne_zero hz.1 base_ne⟩
      · exact ⟨by simp only; rw [hpt j hj], by simp only; rw [hpt j hj]; exact smul_ne_zero hz.2.1 base_ne⟩
      · exact ⟨by simp only; rw [hpt k hk], by simp only; rw [hpt k hk]; exact smul_ne_zero hz.2.2 base_ne⟩
    · have : ∀ a b, a < 5 → b < 5 → a ≠ b → UInt8.ofNat (a + 1) ≠ UInt8.ofNat (b + 1) := by
        intro a b ha hb hab hc
        have := congrArg UInt8.toNat hc
        simp only [UInt8.toNat_ofNat'] at this
        omega
      simp only [List.map_cons, List.map_nil, List.nodup_cons, List.mem_cons, List.not_mem_nil, or_false, not_or,
        not_false_eq_true, List.nodup_nil, and_true]
      exact ⟨⟨this i j hi hj hij, this i k hi hk hik⟩, this j k hj hk hjk⟩
    · have : ∀ a, a < 5 → (0 : UInt8) ≠ UInt8.ofNat (a + 1) := by
        intro a ha hc
        have := congrArg UInt8.toNat hc
        simp only [UInt8.toNat_ofNat', UInt8.toNat_zero] at this
        omega
      simp only [List.map_cons, List.map_nil, List.mem_cons, List.not_mem_nil, or_false, not_or]
      exact ⟨this i hi, this j hj, this k hk⟩
  · right
    refine ⟨hz, ?_⟩
    have bad : ∀ a, f.eval ((a + 1 : ℕ) : ZMod L) = 0 →
        dec (G := G) (enc (f.eval ((a + 1 : ℕ) : ZMod L) • (base : G))) = some 0 := by
      intro a ha
      rw [ha, zero_smul, dec_enc]
    have hor : f.eval ((i + 1 : ℕ) : ZMod L) = 0 ∨ f.eval ((j + 1 : ℕ) : ZMod L) = 0 ∨
        f.eval ((k + 1 : ℕ) : ZMod L) = 0 := by
      by_contra hc
      rw [not_or, not_or] at hc
      exact hz hc
    rcases hor with h | h | h
    · exact C15_thresholdmult_rejects G junk scratch _
        ⟨UInt8.ofNat (i + 1), enc (f.eval ((i + 1 : ℕ) : ZMod L) • (base : G))⟩ (by simp) (Or.inr (bad i h))
    · exact C15_thresholdmult_rejects G junk scratch _
        ⟨UInt8.ofNat (j + 1), enc (f.eval ((j + 1 : ℕ) : ZMod L) • (base : G))⟩ (by simp) (Or.inr (bad j h))
    · exact C15_thresholdmult_rejects G junk scratch _
        ⟨UInt8.ofNat (k + 1), enc (f.eval ((k + 1 : ℕ) : ZMod L) • (base : G))⟩ (by simp) (Or.inr (bad k h))

theorem dkgChecks_eq (junk : UInt8) (scratch : B32) (f : (ZMod L)[X]) (hf : f.degree < (3 : ℕ)) (shares : List Share)
    (hs : shares = (List.range' 0 5).map fun j =>
      (⟨UInt8.ofNat (j + 1), B32.ofZ (f.eval ((j + 1 : ℕ) : ZMod L))⟩ : Share)) :
    ((∀ i : ℕ, 1 ≤ i → i ≤ 5 → f.eval (i : ZMod L) ≠ 0) →
      (f.eval 0 = 40 → dkgChecks G junk scratch shares = .ok .success) ∧
      (f.eval 0 ≠ 40 → dkgChecks G junk scratch shares = .ok .mismatch)) ∧
    (¬ (∀ i : ℕ, 1 ≤ i → i ≤ 5 → f.eval (i : ZMod L) ≠ 0) → dkgChecks G junk scratch shares = .ok .error) := by
  have c1 := combine3_eq G junk scratch f hf shares hs 4 2 0 (by decide) (by decide) (by decide) (by decide) (by decide)
    (by decide)
  have c2 := combine3_eq G junk scratch f hf shares hs 3 1 0 (by decide) (by decide) (by decide) (by decide) (by decide)
    (by decide)
  have h40 : B32.ofByte 40 = B32.ofZ 40 := by rw [ofByte_eq]; simp [point]
  have h40' : (scalarmultBase G (B32.ofByte 40)).2 = enc ((40 : ZMod L) • (base : G)) := by
    simp only [scalarmultBase, h40, maskedVal_ofZ]
  have hrec : rd shares 0 3 = .ok (shares.take 3) := by
    rw [rd_ok (by rw [hs]; simp), List.drop_zero]
  have hrec' : Dkg.reconstruct (shares.take 3) = .ok (B32.ofZ (f.eval 0)) := by
    have : shares.take 3 = [⟨1, B32.ofZ (f.eval ((0 + 1 : ℕ) : ZMod L))⟩, ⟨2, B32.ofZ (f.eval ((1 + 1 : ℕ) : ZMod L))⟩,
        ⟨3, B32.ofZ (f.eval ((2 + 1 : ℕ) : ZMod L))⟩] := by rw [hs]; rfl
    rw [this]
    refine Dkg.reconstruct_recovers f [_, _, _] (by simp) (by simp) hf ?_
    intro s hs'
    simp only [List.mem_cons, List.not_mem_nil, or_false] at hs'
    rcases hs' with rfl | rfl | rfl
    · simp only [B32.val_ofZ]; rfl
    · simp only [B32.val_ofZ]; rfl
    · simp only [B32.val_ofZ]; rfl
  rcases c1 with ⟨⟨n5, n3, n1⟩, e1⟩ | ⟨hz, v, e1⟩
  · rcases c2 with ⟨⟨n4, n2, -⟩, e2⟩ | ⟨hz, v, e2⟩
    · refine ⟨fun _ => ⟨fun h0 => ?_, fun h0 => ?_⟩, fun hc => absurd ?_ hc⟩
      · simp only [dkgChecks, testFinish, testStart, e1, e2, hrec, C.ok_bind, ne_eq, not_true_eq_false, if_false, h40', h0,
          hrec']
        simp [h40]
      · have hne : enc ((40 : ZMod L) • (base : G)) ≠ enc (f.eval 0 • (base : G)) :=
          fun hc => h0 (smul_base_inj (enc_injective hc)).symm
        simp only [dkgChecks, testFinish, testStart, e1, e2, C.ok_bind, ne_eq, not_true_eq_false, if_false, h40',
          hne, not_false_eq_true, if_true]
        simp
      · intro i hi1 hi5
        have : i = 1 ∨ i = 2 ∨ i = 3 ∨ i = 4 ∨ i = 5 := by omega
        rcases this with rfl | rfl | rfl | rfl | rfl
        · exact n1
        · exact n2
        · exact n3
        · exact n4
        · exact n5
    · refine ⟨fun hc => absurd ⟨hc 4 (by decide) (by decide), hc 2 (by decide) (by decide), hc 1 (by decide) (by decide)⟩ hz,
        fun _ => ?_⟩
      simp [dkgChecks, testFinish, e1, e2]
  · refine ⟨fun hc => absurd ⟨hc 5 (by decide) (by decide), hc 3 (by decide) (by decide), hc 1 (by decide) (by decide)⟩ hz,
      fun _ => ?_⟩
    simp [dkgChecks, testFinish, e1]

/-- **C87, dkg.c.** For all coefficients that libsodium can draw: the commitments verify at every peer. If none of the five
final shares is 0, the program succeeds exactly if the secrets sum to 40; otherwise it ends with an error. -/
theorem C87_dkg (junk : UInt8) (scratch : B32) (rnd : ℕ → ℕ → B32) (hr : ∀ i k, RandomScalar (rnd i k)) :
    ((∀ i : ℕ, 1 ≤ i → i ≤ 5 → keyAt rnd i ≠ 0) →
      (keyAt rnd 0 = 40 → Tests.dkg G junk scratch rnd = .ok .success) ∧
      (keyAt rnd 0 ≠ 40 → Tests.dkg G junk scratch rnd = .ok .mismatch)) ∧
    (¬ (∀ i : ℕ, 1 ≤ i → i ≤ 5 → keyAt rnd i ≠ 0) → Tests.dkg G junk scratch rnd = .ok .error) := by
  classical
  set f : (ZMod L)[X] := (((List.range 5).map rnd).map fun r => Dkg.dealer 3 r).sum with hf
  have hdeg : f.degree < (3 : ℕ) := by
    apply degree_list_sum
    intro g hg
    rw [List.mem_map] at hg
    obtain ⟨r, _, rfl⟩ := hg
    exact Dkg.dealer_degree _ _
  have hev : ∀ x, f.eval x = keyAt rnd x := by
    intro x
    rw [hf, eval_list_sum, List.map_map, List.map_map, keyAt]
    congr 1
    apply List.map_congr_left
    intro i _
    simp only [Function.comp, Dkg.dealer, List.range_succ_eq_map, List.range_zero, List.map_cons, List.map_nil,
      polyOf, eval_zero, eval_add, eval_mul, eval_C, eval_X]
    ring
  set css : List (List B32) := ((List.range 5).map rnd).map fun r =>
    (List.range 3).map fun k => enc ((r k).val • (base : G)) with hcss
  set shs : List (List Share) := ((List.range 5).map rnd).map fun r =>
    (List.range' 1 5).map fun k => Dkg.dealt 3 r (UInt8.ofNat k) with hshs
  have hstart := startAll_eq G junk scratch ((List.range 5).map rnd) (by
    intro r h
    rw [List.mem_map] at h
    obtain ⟨i, _, rfl⟩ := h
    exact hr i)
  have hrecv : receiveAll G scratch css shs 5 0 = .ok (some ((List.range' 0 5).map fun j =>
      (⟨UInt8.ofNat (j + 1), B32.ofZ (f.eval ((j + 1 : ℕ) : ZMod L))⟩ : Share))) := by
    apply receiveAll_eq
    intro j _ hj
    have hself : (UInt8.ofNat (j + 1)).toNat = j + 1 := by
      rw [UInt8.toNat_ofNat', Nat.mod_eq_of_lt (by norm_num; omega)]
    have hself0 : UInt8.ofNat (j + 1) ≠ 0 := by
      intro h; rw [h] at hself; simp at hself
    set sent := ((List.range 5).map rnd).map fun r => Dkg.dealt 3 r (UInt8.ofNat (j + 1)) with hsent
    have hcol : (shs.mapM fun d => ld d j) = .ok sent := by
      rw [mapM_ld j ⟨0, zero32⟩ shs (by
        intro d hd
        rw [hshs, List.mem_map] at hd
        obtain ⟨r, _, rfl⟩ := hd
        simp only [List.length_map, List.length_range']
        omega), hshs, List.map_map]
      congr 1
      apply List.map_congr_left
      intro r _
      simp only [Function.comp]
      rw [List.getD_eq_getElem?_getD, List.getElem?_map, List.getElem?_range' (by omega), Option.map_some,
        Option.getD_some, one_mul, add_comm 1 j]
    have hgetc : ∀ i, i < 5 → css.getD i [] = (List.range 3).map fun k => enc ((rnd i k).val • (base : G)) := by
      intro i hi
      rw [hcss, List.getD_eq_getElem?_getD, List.getElem?_map, List.getElem?_map, List.getElem?_range hi]
      rfl
    have hgets : ∀ i, i < 5 → sent.getD i ⟨0, zero32⟩ = Dkg.dealt 3 (rnd i) (UInt8.ofNat (j + 1)) := by
      intro i hi
      rw [hsent, List.getD_eq_getElem?_getD, List.getElem?_map, List.getElem?_map, List.getElem?_range hi]
      rfl
    have hver := C24_verify_commitments_partial G scratch 5 3 (UInt8.ofNat (j + 1)) css sent (List.replicate 5 0)
      (by decide) (by decide) hself0 (by rw [hcss]; simp) (by rw [hsent]; simp) List.length_replicate (by
        intro c hc
        rw [hcss, List.mem_map] at hc
        obtain ⟨r, _, rfl⟩ := hc
        simp) (by
        intro i hi _ c hc
        rw [hgetc i hi] at hc
        have := List.mem_of_mem_drop hc
        rw [List.mem_map] at this
        obtain ⟨k, _, rfl⟩ := this
        exact ⟨_, dec_enc _, smul_ne_zero (hr i k).val_ne base_ne⟩)
    have hnil : ((List.range' 1 (5 : UInt8).toNat).filter fun i => i ≠ (UInt8.ofNat (j + 1)).toNat ∧
      ¬ feldmanOk G (UInt8.ofNat (j + 1)) (css.getD (i - 1) []) (sent.getD (i - 1) ⟨0, zero32⟩)) = [] := by
      rw [List.filter_eq_nil_iff]
      intro i hi
      rw [List.mem_range'_1] at hi
      have hi5 : (5 : UInt8).toNat = 5 := rfl
      rw [hi5] at hi
      rw [hgetc (i - 1) (by omega), hgets (i - 1) (by omega)]
      simp only [decide_eq_true_eq, not_and, not_not]
      intro _
      exact honest_feldman G (rnd (i - 1)) _
    simp only [hnil, List.map_nil, if_true] at hver
    refine ⟨sent, _, hcol, hver, ?_⟩
    rw [Dkg.finish_eq 5 _ _ (by rw [hsent]; simp) (by
      intro s hs
      rw [hsent, List.mem_map] at hs
      obtain ⟨r, _, rfl⟩ := hs
      exact lt_trans (B32.canonical_ofZ _) L_lt_255)]
    congr 3
    rw [List.take_of_length_le (by rw [hsent]; simp), hf, hsent, eval_list_sum]
    simp only [List.map_map]
    congr 1
    apply List.map_congr_left
    intro i _
    simp only [Function.comp, Dkg.dealt, point, hself, B32.val_ofZ]
  simp only [← hev]
  unfold Tests.dkg
  rw [hstart, C.ok_bind]
  simp only [List.map_map]
  have ec : ((List.range 5).map ((fun x : List B32 × List Share => x.1) ∘ (fun r : ℕ → B32 =>
      ((List.range 3).map (fun k => enc ((r k).val • (base : G))),
        (List.range' 1 5).map fun k => Dkg.dealt 3 r (UInt8.ofNat k))) ∘ rnd)) = css := by
    rw [hcss, List.map_map]; rfl
  have es : ((List.range 5).map ((fun x : List B32 × List Share => x.2) ∘ (fun r : ℕ → B32 =>
      ((List.range 3).map (fun k => enc ((r k).val • (base : G))),
        (List.range' 1 5).map fun k => Dkg.dealt 3 r (UInt8.ofNat k))) ∘ rnd)) = shs := by
    rw [hshs, List.map_map]; rfl
  rw [ec, es, hrecv, C.ok_bind]
  exact dkgChecks_eq G junk scratch f hdeg _ rfl

/-- What `debian_rng_scalar` returns in tests/dkg.c: 2, 3, 4, …, utils.c:9-20. -/
def debian (i k : ℕ) : B32 := B32.ofByte (UInt8.ofNat (2 + 3 * i + k))

/-- **C87, dkg.c.** With the counter that replaces the random numbers in the test build the program succeeds. -/
theorem C87_dkg_counter (junk : UInt8) (scratch : B32) (rnd : ℕ → ℕ → B32) (hr : ∀ i k, RandomScalar (rnd i k))
    (hc : ∀ i k, i < 5 → k < 3 → rnd i k = debian i k) : Tests.dkg G junk scratch rnd = .ok .success := by
  have hk : ∀ x : ZMod L, keyAt rnd x = 40 + x * 45 + x ^ 2 * 50 := by
    intro x
    simp only [keyAt, List.range_succ_eq_map, List.range_zero, List.map_cons, List.map_nil, List.sum_cons, List.sum_nil,
      List.map_map, Function.comp]
    simp only [hc _ _ (by decide : (0 : ℕ) < 5) (by decide : (0 : ℕ) < 3), hc _ _ (by decide : (0 : ℕ) < 5) (by decide : (1 : ℕ) < 3),
      hc _ _ (by decide : (0 : ℕ) < 5) (by decide : (2 : ℕ) < 3), hc _ _ (by decide : Nat.succ 0 < 5) (by decide : (0 : ℕ) < 3),
      hc _ _ (by decide : Nat.succ 0 < 5) (by decide : (1 : ℕ) < 3), hc _ _ (by decide : Nat.succ 0 < 5) (by decide : (2 : ℕ) < 3),
      hc _ _ (by decide : Nat.succ (Nat.succ 0) < 5) (by decide : (0 : ℕ) < 3),
      hc _ _ (by decide : Nat.succ (Nat.succ 0) < 5) (by decide : (1 : ℕ) < 3),
      hc _ _ (by decide : Nat.succ (Nat.succ 0) < 5) (by decide : (2 : ℕ) < 3),
      hc _ _ (by decide : Nat.succ (Nat.succ (Nat.succ 0)) < 5) (by decide : (0 : ℕ) < 3),
      hc _ _ (by decide : Nat.succ (Nat.succ (Nat.succ 0)) < 5) (by decide : (1 : ℕ) < 3),
      hc _ _ (by decide : Nat.succ (Nat.succ (Nat.succ 0)) < 5) (by decide : (2 : ℕ) < 3),
      hc _ _ (by decide : Nat.succ (Nat.succ (Nat.succ (Nat.succ 0))) < 5) (by decide : (0 : ℕ) < 3),
      hc _ _ (by decide : Nat.succ (Nat.succ (Nat.succ (Nat.succ 0))) < 5) (by decide : (1 : ℕ) < 3),
      hc _ _ (by decide : Nat.succ (Nat.succ (Nat.succ (Nat.succ 0))) < 5) (by decide : (2 : ℕ) < 3), debian,
      B32.val_ofByte, UInt8.toNat_ofNat']
    norm_num
    ring
  refine (((C87_dkg G junk scratch rnd hr).1 ?_).1 ?_)
  · intro i h1 h5
    have : keyAt rnd (i : ZMod L) = ((40 + i * 45 + i ^ 2 * 50 : ℕ) : ZMod L) := by rw [hk]; push_cast; ring
    rw [this]
    refine Toy.natCast_ne_zero (by omega) ?_
    have h : i ^ 2 ≤ 5 ^ 2 := Nat.pow_le_pow_left h5 2
    have : 40 + i * 45 + i ^ 2 * 50 ≤ 40 + 5 * 45 + 25 * 50 := by omega
    exact lt_of_le_of_lt this (by norm_num)
  · rw [hk]; ring

/-- Scalars that meet the hypotheses: the counter, continued with 1. -/
example : ∃ rnd : ℕ → ℕ → B32, (∀ i k, RandomScalar (rnd i k)) ∧ ∀ i k, i < 5 → k < 3 → rnd i k = debian i k := by
  refine ⟨fun i k => if i < 5 ∧ k < 3 then debian i k else B32.ofByte 1, fun i k => ?_, fun i k hi hk => if_pos ⟨hi, hk⟩⟩
  have h : ∀ b : UInt8, b.toNat ≠ 0 → RandomScalar (B32.ofByte b) := by
    intro b hb
    rw [ofByte_eq, point]
    exact Toy.randomScalar _ hb (lt_trans b.toNat_lt (by norm_num))
  dsimp only
  split
  · rename_i hik
    apply h
    rw [UInt8.toNat_ofNat', Nat.mod_eq_of_lt (by norm_num; omega)]
    omega
  · exact h 1 (by decide)

section
attribute [local instance] Ristretto.toy Toy.hashes

/-- The hypotheses for toprf.c and mpmult.c can be met. -/
example : RandomScalar (B32.ofZ ((7 : ℕ) : ZMod L)) ∧ Spec.hashToGroup (ZMod L) Oprf.sha password ≠ 0 :=
  ⟨Toy.randomScalar _ (by norm_num) (by norm_num), Toy.hashToGroup_ne _⟩
end

end Verif.Props
