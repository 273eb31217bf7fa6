import Verif.Proofs.PyDkg
import Verif.Props.PyTests

/-!
# Property C99: the test of the key generation without trusted party (`/repo/python/tests/test.py:112-147`)

The specification of the result is `keyAt` of C87: the sum of what the five dealers deal at `x`. `five x` are the shares
`x 1`, …, `x 5` as the wrapper returns them.
-/

set_option linter.unusedSectionVars false

namespace Verif.Props

open Ristretto Spec Polynomial Verif.PyTests Verif.Tests

section
variable (G : Type) [Ristretto G] [Hashes] (junk : UInt8) (scratch : B32)

theorem five_cases {p : ℕ → Prop} (h : ∀ i < 5, p (i + 1)) : ∀ i, 1 ≤ i → i ≤ 5 → p i := by
  intro i h1 h5
  obtain ⟨j, rfl⟩ : ∃ j, i = j + 1 := ⟨i - 1, by omega⟩
  exact h j (by omega)

/-- Shares on a polynomial of degree less than 3. -/
theorem check_poly (x : ℕ → ZMod L) (f : (ZMod L)[X]) (hf : f.degree < (3 : ℕ))
    (he : ∀ i < 5, f.eval ((i + 1 : ℕ) : ZMod L) = x (i + 1)) :
    ((∀ i < 5, x (i + 1) ≠ 0) ∧ f.eval 0 ≠ 0 → checkShares (realDkg G junk scratch) G (five x) = .ret ()) ∧
    (¬ ((∀ i < 5, x (i + 1) ≠ 0) ∧ f.eval 0 ≠ 0) → checkShares (realDkg G junk scratch) G (five x) = .raised) := by
  have good : ∀ idxs : List ℕ, idxs.length = 3 → idxs.Nodup → (∀ i ∈ idxs, i < 5) → (∀ i ∈ idxs, x (i + 1) ≠ 0) →
      ∃ ps, powers G (five x) idxs = .ret ps ∧
        (realDkg G junk scratch).thresholdmult ps = .ret (enc (f.eval 0 • (base : G))).toList := by
    intro idxs hl hn h5 h0
    exact ⟨_, powers_ret G x idxs (fun i hi => ⟨h5 i hi, h0 i hi⟩),
      mult_ret G junk scratch x idxs hl hn (fun i hi => ⟨h5 i hi, h0 i hi⟩) f hf (fun i hi => he i (h5 i hi))⟩
  unfold checkShares
  by_cases h1 : x 1 ≠ 0 ∧ x 2 ≠ 0 ∧ x 3 ≠ 0
  · obtain ⟨n1, n2, n3⟩ := h1
    obtain ⟨p0, a0, b0⟩ := good [0, 1, 2] rfl (by decide) (by decide) (by
      simp only [List.mem_cons, List.not_mem_nil, or_false]
      rintro i (rfl | rfl | rfl)
      exacts [n1, n2, n3])
    rw [a0, ret_bind, b0, ret_bind]
    unfold PyTests.compare
    by_cases n4 : x 4 ≠ 0
    · obtain ⟨p1, a1, b1⟩ := good [1, 2, 3] rfl (by decide) (by decide) (by
        simp only [List.mem_cons, List.not_mem_nil, or_false]
        rintro i (rfl | rfl | rfl)
        exacts [n2, n3, n4])
      rw [a1, ret_bind, b1, ret_bind, assertEqual_self, ret_bind]
      unfold PyTests.compare
      by_cases n5 : x 5 ≠ 0
      · obtain ⟨p2, a2, b2⟩ := good [1, 2, 4] rfl (by decide) (by decide) (by
          simp only [List.mem_cons, List.not_mem_nil, or_false]
          rintro i (rfl | rfl | rfl)
          exacts [n2, n3, n5])
        obtain ⟨p3, a3, b3⟩ := good [1, 3, 4] rfl (by decide) (by decide) (by
          simp only [List.mem_cons, List.not_mem_nil, or_false]
          rintro i (rfl | rfl | rfl)
          exacts [n2, n4, n5])
        obtain ⟨p4, a4, b4⟩ := good [2, 3, 4] rfl (by decide) (by decide) (by
          simp only [List.mem_cons, List.not_mem_nil, or_false]
          rintro i (rfl | rfl | rfl)
          exacts [n3, n4, n5])
        rw [a2, ret_bind, b2, ret_bind, assertEqual_self, ret_bind]
        unfold PyTests.compare
        rw [a3, ret_bind, b3, ret_bind, assertEqual_self, ret_bind]
        unfold PyTests.compare
        rw [a4, ret_bind, b4, ret_bind, assertEqual_self, ret_bind]
        unfold PyTests.compare
        rw [ret_bind, reconstruct_ret G junk scratch x f hf (by
          intro i hi
          apply he
          simp only [List.mem_cons, List.not_mem_nil, or_false] at hi
          omega), ret_bind, sodiumBase_eq]
        have hall : ∀ i < 5, x (i + 1) ≠ 0 := by
          intro i hi
          have : i = 0 ∨ i = 1 ∨ i = 2 ∨ i = 3 ∨ i = 4 := by omega
          rcases this with rfl | rfl | rfl | rfl | rfl
          exacts [n1, n2, n3, n4, n5]
        by_cases h0 : f.eval 0 = 0
        · rw [if_pos h0, raised_bind]
          exact ⟨fun h => absurd h0 h.2, fun _ => rfl⟩
        · rw [if_neg h0, ret_bind, assertEqual_self]
          exact ⟨fun _ => rfl, fun h => absurd ⟨hall, h0⟩ h⟩
      · rw [not_not] at n5
        rw [powers_raised G x [1, 2, 4] (by decide) ⟨4, by simp, n5⟩]
        simp only [raised_bind]
        exact ⟨fun h => absurd n5 (h.1 4 (by omega)), fun _ => trivial⟩
    · rw [not_not] at n4
      rw [powers_raised G x [1, 2, 3] (by decide) ⟨3, by simp, n4⟩]
      simp only [raised_bind]
      exact ⟨fun h => absurd n4 (h.1 3 (by omega)), fun _ => trivial⟩
  · have hex : ∃ i ∈ [0, 1, 2], x (i + 1) = 0 := by
      by_contra hc
      simp only [List.mem_cons, List.not_mem_nil, or_false, not_exists, not_and] at hc
      exact h1 ⟨hc 0 (by simp), hc 1 (by simp), hc 2 (by simp)⟩
    rw [powers_raised G x [0, 1, 2] (by decide) hex]
    simp only [raised_bind]
    obtain ⟨i, hi, h0⟩ := hex
    simp only [List.mem_cons, List.not_mem_nil, or_false] at hi
    exact ⟨fun h => absurd h0 (h.1 i (by omega)), fun _ => trivial⟩

/-- What a triple tells if its shares could be combined. -/
theorem triple (x : ℕ → ZMod L) (idxs : List ℕ) (hl : idxs.length = 3) (hn : idxs.Nodup) (h5 : ∀ i ∈ idxs, i < 5)
    (ps : List Bytes) (v : Bytes) (h1 : powers G (five x) idxs = .ret ps)
    (h2 : (realDkg G junk scratch).thresholdmult ps = .ret v) :
    (∀ i ∈ idxs, x (i + 1) ≠ 0) ∧ ∃ f : (ZMod L)[X], f.degree < (3 : ℕ) ∧
      (∀ i ∈ idxs, f.eval ((i + 1 : ℕ) : ZMod L) = x (i + 1)) ∧ v = (enc (f.eval 0 • (base : G))).toList := by
  have h0 : ∀ i ∈ idxs, x (i + 1) ≠ 0 := by
    intro i hi hc
    rw [powers_raised G x idxs h5 ⟨i, hi, hc⟩] at h1
    cases h1
  refine ⟨h0, ?_⟩
  obtain ⟨f, hf, he⟩ := interp3 x idxs hl hn h5
  rw [powers_ret G x idxs (fun i hi => ⟨h5 i hi, h0 i hi⟩)] at h1
  cases h1
  rw [mult_ret G junk scratch x idxs hl hn (fun i hi => ⟨h5 i hi, h0 i hi⟩) f hf he] at h2
  cases h2
  exact ⟨f, hf, he, rfl⟩

theorem toList_enc_inj {a b : ZMod L} (h : (enc (a • (base : G))).toList = (enc (b • (base : G))).toList) : a = b :=
  smul_base_inj (G := G) (enc_injective (Vector.toList_inj.1 h))

/-- **C99, the check of the shares.** For all five shares: the comparison of five of the ten combinations is enough. The
check succeeds exactly if no share is 0 and all five lie on one polynomial of degree less than 3 whose value at 0 is not
0. -/
theorem C99_shares (x : ℕ → ZMod L) : checkShares (realDkg G junk scratch) G (five x) = .ret () ↔
    (∀ i, 1 ≤ i → i ≤ 5 → x i ≠ 0) ∧ ∃ f : (ZMod L)[X], f.degree < (3 : ℕ) ∧
      (∀ i : ℕ, 1 ≤ i → i ≤ 5 → f.eval (i : ZMod L) = x i) ∧ f.eval 0 ≠ 0 := by
  constructor
  · intro h
    simp only [checkShares, PyTests.compare, bind_ret_iff, assertEqual_ret] at h
    obtain ⟨p0, a0, v0, b0, ⟨⟩, ⟨p1, a1, v1, b1, ⟨⟩, e1, p2, a2, v2, b2, ⟨⟩, e2, -⟩, s, hs, w, hw, -⟩ := h
    have e1 := assertEqual_ret.1 e1
    have e2 := assertEqual_ret.1 e2
    obtain ⟨n0, f0, d0, i0, r0⟩ := triple G junk scratch x [0, 1, 2] rfl (by decide) (by decide) p0 v0 a0 b0
    obtain ⟨n1, f1, d1, i1, r1⟩ := triple G junk scratch x [1, 2, 3] rfl (by decide) (by decide) p1 v1 a1 b1
    obtain ⟨n2, f2, d2, i2, r2⟩ := triple G junk scratch x [1, 2, 4] rfl (by decide) (by decide) p2 v2 a2 b2
    have z01 : f0.eval 0 = f1.eval 0 := toList_enc_inj G (by rw [← r0, ← r1, e1])
    have z02 : f0.eval 0 = f2.eval 0 := toList_enc_inj G (by rw [← r0, ← r2, e2])
    have e01 : f0 = f1 := eq_of_three f0 f1 d0 d1 {0, 2, 3} rfl (by decide) (by
      intro a ha
      simp only [Finset.mem_insert, Finset.mem_singleton] at ha
      rcases ha with rfl | rfl | rfl
      · rw [Nat.cast_zero]; exact z01
      · exact (i0 1 (by simp)).trans (i1 1 (by simp)).symm
      · exact (i0 2 (by simp)).trans (i1 2 (by simp)).symm)
    have e02 : f0 = f2 := eq_of_three f0 f2 d0 d2 {0, 2, 3} rfl (by decide) (by
      intro a ha
      simp only [Finset.mem_insert, Finset.mem_singleton] at ha
      rcases ha with rfl | rfl | rfl
      · rw [Nat.cast_zero]; exact z02
      · exact (i0 1 (by simp)).trans (i2 1 (by simp)).symm
      · exact (i0 2 (by simp)).trans (i2 2 (by simp)).symm)
    refine ⟨five_cases ?_, f0, d0, five_cases ?_, ?_⟩
    · intro i hi
      have : i = 0 ∨ i = 1 ∨ i = 2 ∨ i = 3 ∨ i = 4 := by omega
      rcases this with rfl | rfl | rfl | rfl | rfl
      exacts [n0 0 (by simp), n0 1 (by simp), n0 2 (by simp), n1 3 (by simp), n2 4 (by simp)]
    · intro i hi
      have : i = 0 ∨ i = 1 ∨ i = 2 ∨ i = 3 ∨ i = 4 := by omega
      rcases this with rfl | rfl | rfl | rfl | rfl
      exacts [i0 0 (by simp), i0 1 (by simp), i0 2 (by simp), by rw [e01]; exact i1 3 (by simp),
        by rw [e02]; exact i2 4 (by simp)]
    · rw [reconstruct_ret G junk scratch x f0 d0 i0] at hs
      cases hs
      rw [sodiumBase_eq] at hw
      intro hc
      rw [if_pos hc] at hw
      cases hw
  · rintro ⟨h0, f, hf, he, hz⟩
    exact (check_poly G junk scratch x f hf (fun i hi => he (i + 1) (by omega) (by omega))).1
      ⟨fun i hi => h0 (i + 1) (by omega) (by omega), hz⟩

/-- What receiver `j` sees of five dealers that follow the protocol. -/
theorem honest_column (rnd : ℕ → ℕ → B32) (hr : ∀ i k, RandomScalar (rnd i k)) (j : ℕ) (hj : j < 5) :
    (∃ v, Dkg.verifyCommitments G scratch 5 3 (UInt8.ofNat (j + 1))
      ((List.range 5).map fun i => (List.range 3).map fun k => enc ((rnd i k).val • (base : G)))
      ((List.range 5).map fun i => Dkg.dealt 3 (rnd i) (UInt8.ofNat (j + 1))) (List.replicate 5 0) = .ok (0, v)) ∧
    ∀ x, Dkg.finish 5 ((List.range 5).map fun i => Dkg.dealt 3 (rnd i) (UInt8.ofNat (j + 1))) ⟨UInt8.ofNat (j + 1), x⟩ =
      .ok ⟨UInt8.ofNat (j + 1), B32.ofZ (keyAt rnd ((j + 1 : ℕ) : ZMod L))⟩ := by
  classical
  have hself : (UInt8.ofNat (j + 1)).toNat = j + 1 := by
    rw [UInt8.toNat_ofNat', Nat.mod_eq_of_lt (by norm_num; omega)]
  have hself0 : UInt8.ofNat (j + 1) ≠ 0 := by
    intro h; rw [h] at hself; simp at hself
  set css : List (List B32) := (List.range 5).map fun i => (List.range 3).map fun k => enc ((rnd i k).val • (base : G)) with hcss
  set sent := (List.range 5).map fun i => Dkg.dealt 3 (rnd i) (UInt8.ofNat (j + 1)) with hsent
  have hgetc : ∀ i, i < 5 → css.getD i [] = (List.range 3).map fun k => enc ((rnd i k).val • (base : G)) := by
    intro i hi
    rw [hcss, List.getD_eq_getElem?_getD, List.getElem?_map, List.getElem?_range hi]
    rfl
  have hgets : ∀ i, i < 5 → sent.getD i ⟨0, zero32⟩ = Dkg.dealt 3 (rnd i) (UInt8.ofNat (j + 1)) := by
    intro i hi
    rw [hsent, List.getD_eq_getElem?_getD, List.getElem?_map, List.getElem?_range hi]
    rfl
  have hver := C24_verify_commitments_partial G scratch 5 3 (UInt8.ofNat (j + 1)) css sent (List.replicate 5 0)
    (by decide) (by decide) hself0 (by rw [hcss]; simp) (by rw [hsent]; simp) List.length_replicate (by
      intro c hc
      rw [hcss, List.mem_map] at hc
      obtain ⟨r, _, rfl⟩ := hc
      simp) (by
      intro i hi _ c hc
      rw [hgetc i hi] at hc
      have := List.mem_of_mem_drop hc
      rw [List.mem_map] at this
      obtain ⟨k, _, rfl⟩ := this
      exact ⟨_, dec_enc _, smul_ne_zero (hr i k).val_ne base_ne⟩)
  have hnil : ((List.range' 1 (5 : UInt8).toNat).filter fun i => i ≠ (UInt8.ofNat (j + 1)).toNat ∧
    ¬ feldmanOk G (UInt8.ofNat (j + 1)) (css.getD (i - 1) []) (sent.getD (i - 1) ⟨0, zero32⟩)) = [] := by
    rw [List.filter_eq_nil_iff]
    intro i hi
    rw [List.mem_range'_1] at hi
    have hi5 : (5 : UInt8).toNat = 5 := rfl
    rw [hi5] at hi
    rw [hgetc (i - 1) (by omega), hgets (i - 1) (by omega)]
    simp only [decide_eq_true_eq, not_and, not_not]
    intro _
    exact honest_feldman G (rnd (i - 1)) _
  simp only [hnil, List.map_nil, if_true] at hver
  refine ⟨⟨_, hver⟩, fun x => ?_⟩
  rw [Dkg.finish_eq 5 _ _ (by rw [hsent]; simp) (by
    intro s hs
    rw [hsent, List.mem_map] at hs
    obtain ⟨r, _, rfl⟩ := hs
    exact lt_trans (B32.canonical_ofZ _) L_lt_255)]
  congr 3
  rw [List.take_of_length_le (by rw [hsent]; simp), hsent, keyAt, List.map_map]
  congr 1
  apply List.map_congr_left
  intro i _
  simp only [Function.comp, Dkg.dealt, point, hself, B32.val_ofZ]
  simp only [Dkg.dealer, List.range_succ_eq_map, List.range_zero, List.map_cons, List.map_nil,
    polyOf, eval_zero, eval_add, eval_mul, eval_C, eval_X]
  ring

/-- The five dealers deal and the five receivers check and add. -/
theorem rawDkg_shares (rnd : ℕ → ℕ → B32) (hr : ∀ i k, RandomScalar (rnd i k)) (lib : DkgLib)
    (h1 : lib.start = (realDkg G junk scratch).start) (h2 : lib.verify = (realDkg G junk scratch).verify)
    (x : ℕ → Bytes) (h3 : ∀ j < 5, lib.finish 5 (((List.range 5).map fun i =>
      Dkg.dealt 3 (rnd i) (UInt8.ofNat (j + 1))).map pack) ((j : ℤ) + 1) = .ret (x (j + 1))) :
    testRawDkg lib G rnd = checkShares lib G ((List.range' 1 5).map x) := by
  set g : ℕ → ℕ → B32 := fun i k => enc ((rnd i k).val • (base : G)) with hg
  have hd := deal_eq lib (fun r => (((List.range 3).map fun k => enc ((r k).val • (base : G))).map Vector.toList).flatten)
    (fun r i => pack (Dkg.dealt 3 r (UInt8.ofNat i))) ((List.range 5).map rnd) [] [] [] [] [] [] (by
      intro r hm
      obtain ⟨i, _, rfl⟩ := List.mem_map.1 hm
      rw [h1, real_start G junk scratch (rnd i) (hr i)]
      rfl)
  unfold testRawDkg
  have e0 : (List.replicate 5 [] : List (List Bytes)) = [[], [], [], [], []] := rfl
  rw [e0, hd, ret_bind]
  have hrec := receive_eq lib
    (((List.range 5).map fun i => (List.range 3).map (g i)).flatten.map Vector.toList).flatten
    (fun i => ((List.range 5).map fun d => Dkg.dealt 3 (rnd d) (UInt8.ofNat i)).map pack) x 5 0 (by
      intro j _ hj
      rw [zero_add] at hj
      refine ⟨?_, h3 j hj⟩
      obtain ⟨⟨v, hv⟩, -⟩ := honest_column G scratch rnd hr j hj
      have hu : Py.u8 ((j : ℤ) + 1) = UInt8.ofNat (j + 1) := by
        have : j = 0 ∨ j = 1 ∨ j = 2 ∨ j = 3 ∨ j = 4 := by omega
        rcases this with rfl | rfl | rfl | rfl | rfl <;> rfl
      rw [h2, real_verify G junk scratch g _ (by simp) _ (by omega) (by omega), hu]
      rw [hv]
      have h0 := verifyAll_zero G scratch _ _ _ _ _ _ _ _ v.1 _ v.2 hv
      show (Run.ret (v.1.take v.2.toNat)) = _
      rw [h0]
      rfl)
  have e1 : (([] : List Bytes) ++ ((List.range 5).map rnd).map fun r =>
      (((List.range 3).map fun k => enc ((r k).val • (base : G))).map Vector.toList).flatten).flatten =
      (((List.range 5).map fun i => (List.range 3).map (g i)).flatten.map Vector.toList).flatten := by
    simp [List.range_succ, hg]
  have e2 : [[] ++ ((List.range 5).map rnd).map fun r => pack (Dkg.dealt 3 r (UInt8.ofNat 1)),
      [] ++ ((List.range 5).map rnd).map fun r => pack (Dkg.dealt 3 r (UInt8.ofNat 2)),
      [] ++ ((List.range 5).map rnd).map fun r => pack (Dkg.dealt 3 r (UInt8.ofNat 3)),
      [] ++ ((List.range 5).map rnd).map fun r => pack (Dkg.dealt 3 r (UInt8.ofNat 4)),
      [] ++ ((List.range 5).map rnd).map fun r => pack (Dkg.dealt 3 r (UInt8.ofNat 5))] =
      (List.range' (0 + 1) 5).map fun i => ((List.range 5).map fun d => Dkg.dealt 3 (rnd d) (UInt8.ofNat i)).map pack := rfl
  dsimp only
  rw [e1, e2]
  rw [Nat.cast_zero] at hrec
  rw [hrec, ret_bind]

/-- The sum of the polynomials of the dealers. -/
theorem keyPoly (rnd : ℕ → ℕ → B32) :
    ∃ f : (ZMod L)[X], f.degree < (3 : ℕ) ∧ ∀ x, f.eval x = keyAt rnd x := by
  refine ⟨(((List.range 5).map rnd).map fun r => Dkg.dealer 3 r).sum, ?_, fun x => ?_⟩
  · apply degree_list_sum
    intro g hg
    rw [List.mem_map] at hg
    obtain ⟨r, _, rfl⟩ := hg
    exact Dkg.dealer_degree _ _
  · rw [eval_list_sum, List.map_map, List.map_map, keyAt]
    congr 1
    apply List.map_congr_left
    intro i _
    simp only [Function.comp, Dkg.dealer, List.range_succ_eq_map, List.range_zero, List.map_cons, List.map_nil,
      polyOf, eval_zero, eval_add, eval_mul, eval_C, eval_X]
    ring

/-- **C99, `test_raw_dkg`.** For all coefficients that libsodium can draw: the test passes if neither the key nor one of the
five final shares is 0. Otherwise pysodium raises an exception. No assertion ever fails. -/
theorem C99_raw_dkg (rnd : ℕ → ℕ → B32) (hr : ∀ i k, RandomScalar (rnd i k)) :
    ((∀ i : ℕ, i ≤ 5 → keyAt rnd i ≠ 0) → testRawDkg (realDkg G junk scratch) G rnd = .ret ()) ∧
    (¬ (∀ i : ℕ, i ≤ 5 → keyAt rnd i ≠ 0) → testRawDkg (realDkg G junk scratch) G rnd = .raised) := by
  obtain ⟨f, hf, hev⟩ := keyPoly rnd
  have h := rawDkg_shares G junk scratch rnd hr (realDkg G junk scratch) rfl rfl
    (fun i => pack (share (fun i => keyAt rnd i) i)) (by
      intro j hj
      obtain ⟨-, hfin⟩ := honest_column G scratch rnd hr j hj
      have hu : Py.u8 ((j : ℤ) + 1) = UInt8.ofNat (j + 1) := by
        have : j = 0 ∨ j = 1 ∨ j = 2 ∨ j = 3 ∨ j = 4 := by omega
        rcases this with rfl | rfl | rfl | rfl | rfl <;> rfl
      rw [real_finish G junk scratch _ (by simp) _ (by omega) (by omega), hu, hfin]
      rfl)
  have e : (List.range' 1 5).map (fun i => pack (share (fun i => keyAt rnd i) i)) = five fun i => keyAt rnd i := by
    unfold five
    rw [List.map_map]
    rfl
  rw [e] at h
  have key := check_poly G junk scratch (fun i => keyAt rnd i) f hf (fun i _ => hev _)
  have hiff : ((∀ i < 5, keyAt rnd ((i + 1 : ℕ) : ZMod L) ≠ 0) ∧ f.eval 0 ≠ 0) ↔ ∀ i : ℕ, i ≤ 5 → keyAt rnd i ≠ 0 := by
    rw [hev]
    constructor
    · rintro ⟨h1, h0⟩ i hi
      cases i with
      | zero => rw [Nat.cast_zero]; exact h0
      | succ i => exact h1 i (by omega)
    · intro h
      refine ⟨fun i hi => h (i + 1) (by omega), ?_⟩
      have := h 0 (by omega)
      rwa [Nat.cast_zero] at this
  rw [h, ← hiff]
  exact key

/-- **C99, what the test detects.** Suppose that `dkg_finish` returned arbitrary shares `x 1`, …, `x 5` instead of the sums.
The test passes exactly if no share is 0 and all five lie on one polynomial of degree less than 3 whose value at 0 is not
0. -/
theorem C99_detects (x : ℕ → ZMod L) (rnd : ℕ → ℕ → B32) (hr : ∀ i k, RandomScalar (rnd i k)) :
    testRawDkg { realDkg G junk scratch with finish := fun _ _ i => .ret (pack (share x i.toNat)) } G rnd = .ret () ↔
    (∀ i, 1 ≤ i → i ≤ 5 → x i ≠ 0) ∧ ∃ f : (ZMod L)[X], f.degree < (3 : ℕ) ∧
      (∀ i : ℕ, 1 ≤ i → i ≤ 5 → f.eval (i : ZMod L) = x i) ∧ f.eval 0 ≠ 0 := by
  have h := rawDkg_shares G junk scratch rnd hr
    { realDkg G junk scratch with finish := fun _ _ i => .ret (pack (share x i.toNat)) } rfl rfl
    (fun i => pack (share x i)) (fun j _ => rfl)
  have e : (List.range' 1 5).map (fun i => pack (share x i)) = five x := by
    unfold five
    rw [List.map_map]
    rfl
  rw [e] at h
  rw [h, ← C99_shares G junk scratch x]
  rfl

/-- **C99, what the test does not detect.** If `dkg_finish` ignored what the dealers sent and every final share were 1, then
the key would be known to everyone. The test would pass for all random values. -/
theorem C99_key_violated (rnd : ℕ → ℕ → B32) (hr : ∀ i k, RandomScalar (rnd i k)) :
    testRawDkg { realDkg G junk scratch with finish := fun _ _ i => .ret (pack (share (fun _ => 1) i.toNat)) } G rnd =
      .ret () := by
  rw [C99_detects G junk scratch (fun _ => 1) rnd hr]
  refine ⟨fun _ _ _ => one_ne_zero, 1, ?_, fun _ _ _ => eval_one, by rw [eval_one]; exact one_ne_zero⟩
  rw [degree_one]
  norm_num

theorem raiseIf_reached {α : Type} {p : Prop} [Decidable p] {k : Py.Res α} {x : C α} (h : Py.raiseIf p k = .reached x) :
    k = .reached x := by
  unfold Py.raiseIf at h
  split at h
  · cases h
  · exact h

theorem orRaise_reached {α β : Type} {o : Option β} {k : β → Py.Res α} {x : C α} (h : Py.orRaise o k = .reached x) :
    ∃ b, k b = .reached x := by
  unfold Py.orRaise at h
  split at h
  · cases h
  · exact ⟨_, h⟩

/-- **C99, unreachable code.** The list of lines 130-133 of the test is empty whenever `dkg_verify_commitments` returns: the
wrapper raises an exception of its own if a share does not verify. The failing peers are never printed. -/
theorem C99_fails_empty (n t self : ℤ) (c : Bytes) (shares : List Bytes) (fails : Bytes)
    (h : (realDkg G junk scratch).verify n t self c shares = .ret fails) : fails = [] := by
  obtain ⟨a, ha, rfl⟩ := checked_ret h
  unfold Py.dkgVerifyCommitments at ha
  obtain ⟨len, ha⟩ := orRaise_reached (raiseIf_reached (raiseIf_reached (raiseIf_reached ha)))
  obtain ⟨b, ha⟩ := orRaise_reached (raiseIf_reached ha)
  obtain ⟨c', ha⟩ := orRaise_reached (raiseIf_reached (raiseIf_reached (raiseIf_reached (raiseIf_reached ha))))
  have := Py.Res.reached.inj ha
  simp only [C.bind_eq_ok] at this
  obtain ⟨_, _, _, _, hv⟩ := this
  have h0 := verifyAll_zero G scratch _ _ _ _ _ _ _ _ a.1 _ a.2 hv
  rw [h0]
  rfl

end

section Toy
attribute [local instance] Ristretto.toy Toy.hashes

theorem unit_key (x : ℕ) (h5 : x ≤ 5) : keyAt (fun _ _ => unit) (x : ZMod L) ≠ 0 := by
  have : keyAt (fun _ _ => unit) (x : ZMod L) = ((5 * (1 + x + x ^ 2) : ℕ) : ZMod L) := by
    simp only [keyAt, unit_val, List.map_const', List.length_range, List.sum_replicate]
    push_cast
    ring
  rw [this]
  have h : x ^ 2 ≤ 5 ^ 2 := Nat.pow_le_pow_left h5 2
  exact Toy.natCast_ne_zero (by omega) (lt_of_le_of_lt (by omega : 5 * (1 + x + x ^ 2) ≤ 155) (by norm_num))

/-- All dealers draw 1, 1 and 1. -/
example : testRawDkg (realDkg (ZMod L) 0 zero32) (ZMod L) (fun _ _ => unit) = .ret () :=
  (C99_raw_dkg (ZMod L) 0 zero32 _ fun _ _ => unit_random).1 unit_key

/-- Shares that do not lie on one polynomial: all are 1 but that of the last shareholder, which is 2. -/
example : testRawDkg { realDkg (ZMod L) 0 zero32 with
    finish := fun _ _ i => .ret (pack (share (fun i => if i = 5 then 2 else 1) i.toNat)) } (ZMod L) (fun _ _ => unit) ≠ .ret () := by
  rw [Ne, C99_detects (ZMod L) 0 zero32 _ _ fun _ _ => unit_random]
  rintro ⟨-, f, hf, he, -⟩
  have h1 : f = 1 := eq_of_three f 1 hf (by rw [degree_one]; norm_num) {1, 2, 3} rfl (by decide) (by
    intro a ha
    simp only [Finset.mem_insert, Finset.mem_singleton] at ha
    rw [he a (by omega) (by omega), if_neg (by omega), eval_one])
  have h5 := he 5 (by decide) (by decide)
  rw [h1, eval_one, if_pos rfl] at h5
  have : ((1 : ℕ) : ZMod L) = 0 := by
    have := congrArg (· - 1) h5
    simp only [sub_self] at this
    rw [Nat.cast_one]
    calc (1 : ZMod L) = 2 - 1 := by norm_num
      _ = 0 := this.symm
  exact Toy.natCast_ne_zero (by norm_num) (by norm_num) this

/-- Draws for which the key is 0: the dealers draw 1, 1, 1, 1 and -4 as secrets. -/
example : testRawDkg (realDkg (ZMod L) 0 zero32) (ZMod L) (fun i k => if i = 4 ∧ k = 0 then B32.ofNat (L - 4) else unit) =
    .raised := by
  have h4 : RandomScalar (B32.ofNat (L - 4)) := by unfold RandomScalar B32.Canonical; decide +kernel
  refine (C99_raw_dkg (ZMod L) 0 zero32 _ fun i k => ?_).2 fun h => h 0 (by decide) ?_
  · split
    · exact h4
    · exact unit_random
  · have hv : (B32.ofNat (L - 4)).val = -4 := by decide +kernel
    simp only [keyAt, List.range_succ_eq_map, List.range_zero, List.map_cons, List.map_nil, List.sum_cons, List.sum_nil,
      List.map_map, Function.comp, Nat.cast_zero, zero_mul]
    norm_num [unit_val, hv]

end Toy

end Verif.Props
