import Verif.Proofs.Vsps
import Mathlib.Algebra.Polynomial.Roots

/-!
# Property C86: the degree check of `/repo/src/tests/mpmult.c`
-/

set_option linter.unusedSectionVars false

namespace Verif.Props

open Ristretto Spec Polynomial Verif.Mpmult Verif.Tests

variable (G : Type) [Ristretto G]

/-- Elements that a polynomial commits to: `A_c = f(c+1)·base`. -/
def CommitsTo (f : (ZMod L)[X]) (A : List B32) : Prop :=
  ∀ c, c < A.length → A[c]? = some (enc (f.eval ((c + 1 : ℕ) : ZMod L) • (base : G)))

/-- **C86, as far as it holds.** For `2t + 2` elements the check ends with 0 or 1, and with 1 if one of the elements is
malformed or the identity. Missing: commitments to a polynomial of degree `t` are refused (next theorems). -/
theorem C86_degree_check_partial (junk : UInt8) (scratch : B32) (t : UInt8) (ht : t ≠ 0) (ht' : t ≠ 255) (A : List B32)
    (hA : 2 * t.toNat + 2 ≤ A.length) (delta : B32) :
    (vspsCheck G junk scratch t A delta = .ok 0 ∨ vspsCheck G junk scratch t A delta = .ok 1) ∧
    ((∃ c, c < 2 * t.toNat + 2 ∧ ¬ ∃ P : G, dec (A.getD c zero32) = some P ∧ P ≠ 0) →
      vspsCheck G junk scratch t A delta = .ok 1) := by
  have ht0 : t.toNat ≠ 0 := fun h => ht (UInt8.toNat_inj.1 h)
  unfold vspsCheck
  rw [if_neg ht']
  have good : ∀ (B inv : List B32) (c : ℕ), part G B inv delta.val t.toNat c ≠ none →
      ∃ P : G, dec (B.getD c zero32) = some P ∧ P ≠ 0 := by
    intro B inv c h
    unfold part at h
    cases hd : dec (G := G) (B.getD c zero32) with
    | none => rw [hd] at h; exact absurd rfl h
    | some P =>
      refine ⟨P, rfl, ?_⟩
      rintro rfl
      rw [hd] at h
      simp at h
  have len : ∀ M : Mat (t.toNat + 1), (t.toNat + 1) * (t.toNat + 1) ≤ (flat M).length := fun M => (flat_length M).ge
  rcases vsps_cases G scratch t.toNat ht0 A (flat (invertedVDM (leftIndexes t.toNat junk) fun _ _ => scratch)) delta
    (len _) (by omega) with ⟨h1, e1⟩ | ⟨_, w, e1⟩
  · dsimp only
    rw [e1, C.ok_bind]
    simp only [ne_eq, not_true_eq_false, if_false]
    rcases vsps_cases G scratch t.toNat ht0 (A.drop (t.toNat + 1)) (flat (invertedVDM (rightIndexes t.toNat)
      (invertedVDM (leftIndexes t.toNat junk) fun _ _ => scratch))) delta (len _) (by simp; omega) with
        ⟨h2, e2⟩ | ⟨_, w, e2⟩
    · rw [e2, C.ok_bind]
      simp only [not_true_eq_false, if_false]
      refine ⟨?_, ?_⟩
      · split
        · exact Or.inr rfl
        · exact Or.inl rfl
      · rintro ⟨c, hc, hbad⟩
        exfalso
        apply hbad
        by_cases hlt : c < t.toNat + 1
        · exact good _ _ c (h1 c hlt)
        · have := good _ _ (c - (t.toNat + 1)) (h2 (c - (t.toNat + 1)) (by omega))
          rw [List.getD_eq_getElem?_getD, List.getElem?_drop, show t.toNat + 1 + (c - (t.toNat + 1)) = c by omega,
            ← List.getD_eq_getElem?_getD] at this
          exact this
    · rw [e2, C.ok_bind]
      simp
  · dsimp only
    rw [e1, C.ok_bind]
    simp

/-- What the left-hand side interpolates at 0: the values at `1, …, t+1` for the nodes `1, …, t` and `junk`. -/
noncomputable def leftAtZero (f : (ZMod L)[X]) (t : ℕ) (junk : UInt8) : ZMod L :=
  ∑ c : Fin (t + 1), lagrange (List.ofFn (leftIndexes t junk)) (leftIndexes t junk c) * f.eval ((c.1 + 1 : ℕ) : ZMod L)

theorem leftIndexes_injective {t : ℕ} (ht : t ≤ 254) {junk : UInt8} (hj : junk.toNat = 0 ∨ t < junk.toNat) :
    Function.Injective (leftIndexes t junk) := by
  intro a b h
  unfold leftIndexes at h
  apply Fin.ext
  have ha := a.2
  have hb := b.2
  split at h <;> split at h
  · have := congrArg UInt8.toNat h
    simp only [UInt8.toNat_ofNat'] at this
    omega
  · have := congrArg UInt8.toNat h
    simp only [UInt8.toNat_ofNat'] at this
    omega
  · have := congrArg UInt8.toNat h
    simp only [UInt8.toNat_ofNat'] at this
    omega
  · omega

theorem rightIndexes_injective {t : ℕ} (ht : t ≤ 254) : Function.Injective (rightIndexes t) := by
  intro a b h
  have := congrArg UInt8.toNat h
  have ha := a.2
  have hb := b.2
  simp only [rightIndexes, UInt8.toNat_ofNat'] at this
  apply Fin.ext
  omega

/-- The constant coefficient is not affected by the wrong length of the rows. -/
theorem weight_row0 {t : ℕ} (indexes : Fin (t + 1) → UInt8) (h : Function.Injective indexes) (x0 : Mat (t + 1))
    (c : Fin (t + 1)) : ((flat (invertedVDM indexes x0)).getD (0 * t + c.1) zero32).val =
      lagrange (List.ofFn indexes) (indexes c) := by
  have hc := c.2
  rw [flat_getD _ (by nlinarith), zero_mul, zero_add, Nat.div_eq_of_lt hc, Nat.mod_eq_of_lt hc]
  have e1 : Fin.ofNat (t + 1) 0 = 0 := rfl
  have e2 : Fin.ofNat (t + 1) c.1 = c := by
    apply Fin.ext
    simp [Fin.ofNat, Nat.mod_eq_of_lt hc]
  rw [e1, e2, C29_first_row indexes h x0 c]

theorem part_commits {f : (ZMod L)[X]} {A : List B32} (hA : CommitsTo G f A) (inv : List B32) (d : ZMod L) (t c s : ℕ)
    (hc : s + c < A.length) (h : part G (A.drop s) inv d t c ≠ none) :
    (part G (A.drop s) inv d t c).getD 0 = (weight inv d t c * f.eval ((s + c + 1 : ℕ) : ZMod L)) • (base : G) := by
  have e : (A.drop s).getD c zero32 = enc (f.eval ((s + c + 1 : ℕ) : ZMod L) • (base : G)) := by
    rw [List.getD_eq_getElem?_getD, List.getElem?_drop, hA _ hc, Option.getD_some]
  unfold part at h ⊢
  rw [e, dec_enc] at h ⊢
  simp only at h ⊢
  split at h
  · exact absurd rfl h
  · rename_i hz
    rw [if_neg hz, Option.getD_some, mul_smul]

/-- **C86 is violated.** Let `A` commit to a polynomial `f` of degree at most `t`, as it should. If the byte that the check
reads without having written it is no other index, the check accepts for at most `t` of all challenges, unless two
unrelated values agree: what the left-hand side interpolates at 0 and `f(1)`. -/
theorem C86_correct_sharing_refused (junk : UInt8) (scratch : B32) (t : UInt8) (ht : t ≠ 0) (ht' : t.toNat ≤ 126)
    (hj : junk.toNat = 0 ∨ t.toNat < junk.toNat) (f : (ZMod L)[X]) (hf : f.degree < (t.toNat + 1 : ℕ)) (A : List B32)
    (hlen : 2 * t.toNat + 2 ≤ A.length) (hA : CommitsTo G f A) (hne : leftAtZero f t.toNat junk ≠ f.eval 1) :
    ∃ S : Finset (ZMod L), S.card ≤ t.toNat ∧
      ∀ delta, vspsCheck G junk scratch t A delta = .ok 0 → delta.val ∈ S := by
  classical
  have ht0 : t.toNat ≠ 0 := fun h => ht (UInt8.toNat_inj.1 h)
  set T := t.toNat with hT
  set inv1 := invertedVDM (leftIndexes T junk) fun _ _ => scratch with hi1
  set inv2 := invertedVDM (rightIndexes T) inv1 with hi2
  set w : ℕ → ZMod L := fun j =>
    ∑ c ∈ Finset.range (T + 1), (((flat inv1).getD (j * T + c) zero32).val * f.eval ((0 + c + 1 : ℕ) : ZMod L) -
      ((flat inv2).getD (j * T + c) zero32).val * f.eval ((T + 1 + c + 1 : ℕ) : ZMod L)) with hw
  set Q : (ZMod L)[X] := ∑ j ∈ Finset.range (T + 1), Polynomial.C (w j) * X ^ j with hQ
  have hdeg : Q.natDegree ≤ T := by
    apply natDegree_sum_le_of_forall_le
    intro j hj
    exact (natDegree_C_mul_X_pow_le _ _).trans (by rw [Finset.mem_range] at hj; omega)
  have hco : Q.coeff 0 = w 0 := by
    rw [hQ, finset_sum_coeff, Finset.sum_eq_single 0]
    · simp
    · intro j _ hj
      simp [coeff_X_pow, hj]
      intro h; exact absurd h.symm hj
    · simp
  -- the constant coefficient
  have hw0 : w 0 = leftAtZero f T junk - f.eval 1 := by
    rw [hw]
    simp only
    rw [Finset.sum_sub_distrib, Finset.sum_range, Finset.sum_range]
    congr 1
    · unfold leftAtZero
      apply Finset.sum_congr rfl
      intro c _
      rw [hi1, weight_row0 _ (leftIndexes_injective (by omega) hj), zero_add]
    · have hn := rightIndexes_injective (t := T) (by omega)
      have := lagrange_sum (List.ofFn (rightIndexes T)) (List.nodup_ofFn.2 hn) (f.comp (X + 1)) (by
        rw [List.length_ofFn]
        refine lt_of_le_of_lt ?_ hf
        rcases eq_or_ne f 0 with h0 | h0
        · simp [h0]
        · rw [degree_eq_natDegree h0]
          refine degree_le_of_natDegree_le ?_
          rw [natDegree_comp]
          have : (X + 1 : (ZMod L)[X]).natDegree ≤ 1 := by
            rw [← Polynomial.C_1]; exact natDegree_X_add_C 1 |>.le
          nlinarith)
      rw [List.map_ofFn, List.sum_ofFn] at this
      simp only [eval_comp, eval_add, eval_X, eval_one, zero_add, Function.comp] at this
      rw [← this]
      apply Finset.sum_congr rfl
      intro c _
      rw [hi2, weight_row0 _ hn]
      congr 2
      have hc := c.2
      rw [point, rightIndexes, UInt8.toNat_ofNat', Nat.mod_eq_of_lt (by norm_num; omega)]
      push_cast
      ring
  have hQ0 : Q ≠ 0 := by
    intro h
    rw [h, coeff_zero, hw0] at hco
    exact hne (sub_eq_zero.1 hco.symm)
  refine ⟨Q.roots.toFinset, ((Multiset.toFinset_card_le _).trans (card_roots' Q)).trans hdeg, ?_⟩
  intro delta hacc
  rw [Multiset.mem_toFinset, mem_roots hQ0, IsRoot.def]
  have ht255 : t ≠ 255 := by rintro rfl; simp [hT] at ht'
  unfold vspsCheck at hacc
  rw [if_neg ht255] at hacc
  have len : ∀ M : Mat (T + 1), (T + 1) * (T + 1) ≤ (flat M).length := fun M => (flat_length M).ge
  rcases vsps_cases G scratch T ht0 A (flat inv1) delta (len _) (by omega) with ⟨h1, e1⟩ | ⟨_, v, e1⟩
  swap
  · dsimp only at hacc
    rw [e1, C.ok_bind] at hacc
    simp at hacc
  dsimp only at hacc
  rw [e1, C.ok_bind] at hacc
  simp only [ne_eq, not_true_eq_false, if_false] at hacc
  rcases vsps_cases G scratch T ht0 (A.drop (T + 1)) (flat inv2) delta (len _) (by simp; omega) with
    ⟨h2, e2⟩ | ⟨_, v, e2⟩
  swap
  · rw [e2, C.ok_bind] at hacc
    simp at hacc
  rw [e2, C.ok_bind] at hacc
  simp only [not_true_eq_false, if_false] at hacc
  split at hacc
  · simp at hacc
  rename_i heq
  have heq := enc_injective (not_not.1 heq)
  have s1 : ∑ c ∈ Finset.range (T + 1), (part G A (flat inv1) delta.val T c).getD 0 =
      (∑ c ∈ Finset.range (T + 1), weight (flat inv1) delta.val T c * f.eval ((0 + c + 1 : ℕ) : ZMod L)) • (base : G) := by
    rw [Finset.sum_smul]
    apply Finset.sum_congr rfl
    intro c hc
    rw [Finset.mem_range] at hc
    have := part_commits G hA (flat inv1) delta.val T c 0 (by omega) (by simpa using h1 c hc)
    simpa using this
  have s2 : ∑ c ∈ Finset.range (T + 1), (part G (A.drop (T + 1)) (flat inv2) delta.val T c).getD 0 =
      (∑ c ∈ Finset.range (T + 1), weight (flat inv2) delta.val T c * f.eval ((T + 1 + c + 1 : ℕ) : ZMod L)) •
        (base : G) := by
    rw [Finset.sum_smul]
    apply Finset.sum_congr rfl
    intro c hc
    rw [Finset.mem_range] at hc
    exact part_commits G hA (flat inv2) delta.val T c (T + 1) (by omega) (h2 c hc)
  rw [s1, s2] at heq
  have heq := smul_base_inj heq
  rw [hQ, eval_finset_sum]
  simp only [eval_mul, eval_C, eval_pow, eval_X]
  rw [← sub_eq_zero, ← Finset.sum_sub_distrib] at heq
  rw [← heq, hw]
  simp only [weight, Finset.sum_mul]
  simp only [← Finset.sum_sub_distrib]
  rw [Finset.sum_comm]
  apply Finset.sum_congr rfl
  intro c _
  apply Finset.sum_congr rfl
  intro j _
  ring

/-- With the byte `t + 1`, which would make the indexes complete, the left-hand side interpolates `f(0)`. -/
theorem leftAtZero_eq (f : (ZMod L)[X]) {t : ℕ} (ht : t ≤ 254) (hf : f.degree < (t + 1 : ℕ)) :
    leftAtZero f t (UInt8.ofNat (t + 1)) = f.eval 0 := by
  have hn := leftIndexes_injective ht (junk := UInt8.ofNat (t + 1)) (Or.inr (by simp; omega))
  have := lagrange_sum (List.ofFn (leftIndexes t (UInt8.ofNat (t + 1)))) (List.nodup_ofFn.2 hn) f (by
    rwa [List.length_ofFn])
  rw [List.map_ofFn, List.sum_ofFn] at this
  rw [← this]
  unfold leftAtZero
  apply Finset.sum_congr rfl
  intro c _
  simp only [Function.comp]
  congr 2
  have hc := c.2
  unfold point leftIndexes
  split
  · rw [UInt8.toNat_ofNat', Nat.mod_eq_of_lt (by norm_num; omega)]
  · rw [UInt8.toNat_ofNat', Nat.mod_eq_of_lt (by norm_num; omega), show c.1 = t by omega]

/-- **C86 is violated.** Even if the byte happens to be the missing index, the commitments to a polynomial of degree at
most `t` with `f(0) ≠ f(1)` are accepted for at most `t` of all challenges. -/
theorem C86_correct_sharing_refused_index (scratch : B32) (t : UInt8) (ht : t ≠ 0) (ht' : t.toNat ≤ 126)
    (f : (ZMod L)[X]) (hf : f.degree < (t.toNat + 1 : ℕ)) (A : List B32) (hlen : 2 * t.toNat + 2 ≤ A.length)
    (hA : CommitsTo G f A) (hne : f.eval 0 ≠ f.eval 1) :
    ∃ S : Finset (ZMod L), S.card ≤ t.toNat ∧
      ∀ delta, vspsCheck G (t + 1) scratch t A delta = .ok 0 → delta.val ∈ S := by
  have e : t + 1 = UInt8.ofNat (t.toNat + 1) := by
    apply UInt8.toNat_inj.1
    simp
  rw [e]
  refine C86_correct_sharing_refused G _ scratch t ht ht' (Or.inr ?_) f hf A hlen hA ?_
  · rw [UInt8.toNat_ofNat', Nat.mod_eq_of_lt (by norm_num; omega)]
    omega
  · rwa [leftAtZero_eq f (by omega) hf]

section
variable [Hashes]

/-- The second generator of `test_vsps`. -/
noncomputable def sleevePoint : G := Spec.hashToGroup G Oprf.sha (Hashes.generichash64 sleeve).toList

theorem commitAll_eq (z : ZMod L) (H : G) (hz : H = z • (base : G)) (f r : (ZMod L)[X]) : ∀ l : List ℕ,
    (∃ A, commitAll G (enc H) (l.map fun k =>
      ((⟨UInt8.ofNat k, B32.ofZ (f.eval (point (UInt8.ofNat k)))⟩ : Share),
        (⟨UInt8.ofNat k, B32.ofZ (r.eval (point (UInt8.ofNat k)))⟩ : Share))) = some A ∧
      A = l.map fun k => enc ((f + Polynomial.C z * r).eval (point (UInt8.ofNat k)) • (base : G))) ∨
    commitAll G (enc H) (l.map fun k =>
      ((⟨UInt8.ofNat k, B32.ofZ (f.eval (point (UInt8.ofNat k)))⟩ : Share),
        (⟨UInt8.ofNat k, B32.ofZ (r.eval (point (UInt8.ofNat k)))⟩ : Share))) = none
  | [] => Or.inl ⟨[], rfl, rfl⟩
  | k :: l => by
    simp only [List.map_cons, commitAll, scalarmult_enc, maskedVal_ofZ, scalarmultBase]
    by_cases hzero : r.eval (point (UInt8.ofNat k)) • H = 0
    · right
      rw [if_pos]
      rw [if_pos (by rw [hzero, enc_zero])]
      decide
    · rw [if_neg (by rw [if_neg (by rwa [enc_eq_zero])]; decide), pointAdd_enc]
      rcases commitAll_eq z H hz f r l with ⟨A, h1, h2⟩ | h1
      · left
        refine ⟨_, by rw [h1, Option.map_some], ?_⟩
        rw [h2, hz, smul_smul, ← add_smul]
        congr 3
        rw [eval_add, eval_mul, eval_C, mul_comm z]
      · right
        rw [h1, Option.map_none]

/-- **C86 is violated.** `test_vsps`: two sharings of degree 3 and the commitments to them. The test succeeds for at most 3
of all challenges (the byte of the stack as above, `p` the polynomial in the exponent). -/
theorem C86_test_fails (junk : UInt8) (scratch a r : B32) (ha : a.Canonical) (hr : r.Canonical) (fa fr : ℕ → B32)
    (hj : junk.toNat = 0 ∨ 3 < junk.toNat) (z : ZMod L) (hz : sleevePoint G = z • (base : G)) :
    let p := dealPoly a.val 4 fa + Polynomial.C z * dealPoly r.val 4 fr
    leftAtZero p 3 junk ≠ p.eval 1 →
    ∃ S : Finset (ZMod L), S.card ≤ 3 ∧
      ∀ delta, testVsps G junk scratch a r fa fr delta = .ok .success → delta.val ∈ S := by
  intro p hne
  have hcs : ∀ (s : B32) (hs : s.Canonical) (c : ℕ → B32),
      Toprf.createShares s 8 4 c (List.replicate 8 ⟨junk, scratch⟩) = .ok ((List.range' 1 8).map fun k =>
        (⟨UInt8.ofNat k, B32.ofZ ((dealPoly s.val 4 c).eval (point (UInt8.ofNat k)))⟩ : Share)) := by
    intro s hs c
    have h := createShares_shares s (Toprf.NoOverflow.of_canonical hs) 8 4 c (List.replicate 8 ⟨junk, scratch⟩) (by decide)
      (by decide) List.length_replicate.ge
    rw [List.drop_of_length_le (by rw [List.length_replicate]; decide), List.append_nil] at h
    exact h
  have hh : Oprf.hashToGroup G true (Hashes.generichash64 sleeve).toList 64 zero32 = .ok (0, enc (sleevePoint G)) := by
    rw [Oprf.hashToGroup_ok G _ _ (by simp), List.take_of_length_le (by simp)]
    rfl
  have hzip : ((List.range' 1 8).map fun k =>
        (⟨UInt8.ofNat k, B32.ofZ ((dealPoly a.val 4 fa).eval (point (UInt8.ofNat k)))⟩ : Share)).zip
      ((List.range' 1 8).map fun k =>
        (⟨UInt8.ofNat k, B32.ofZ ((dealPoly r.val 4 fr).eval (point (UInt8.ofNat k)))⟩ : Share)) =
      (List.range' 1 8).map fun k =>
      ((⟨UInt8.ofNat k, B32.ofZ ((dealPoly a.val 4 fa).eval (point (UInt8.ofNat k)))⟩ : Share),
        (⟨UInt8.ofNat k, B32.ofZ ((dealPoly r.val 4 fr).eval (point (UInt8.ofNat k)))⟩ : Share)) := by
    rw [List.zip_map_left, List.zip_map_right, List.zip_eq_zipWith, List.zipWith_self, List.map_map, List.map_map]
    rfl
  unfold testVsps
  simp only [hcs a ha fa, C.ok_bind, hcs r hr fr, hh, hzip, ne_eq, not_true_eq_false, if_false]
  rcases commitAll_eq G z (sleevePoint G) hz (dealPoly a.val 4 fa) (dealPoly r.val 4 fr) (List.range' 1 8) with
    ⟨A, h1, h2⟩ | h1
  · rw [h1]
    have hdeg : ∀ (s : ZMod L) (c : ℕ → B32), (dealPoly s 4 c).degree < (3 + 1 : ℕ) := by
      intro s c
      have := polyOf_degree (s :: ((List.range (4 - 1)).map fun j => (c j).val))
      simpa [dealPoly] using this
    obtain ⟨S, hS, hacc⟩ := C86_correct_sharing_refused G junk scratch 3 (by decide) (by decide) hj p
      (by
        refine lt_of_le_of_lt (degree_add_le _ _) (max_lt (hdeg _ _) ?_)
        rw [← smul_eq_C_mul]
        exact lt_of_le_of_lt (degree_smul_le _ _) (hdeg _ _)) A (by rw [h2]; simp) (by
        intro c hc
        rw [h2] at hc ⊢
        simp only [List.length_map, List.length_range'] at hc
        rw [List.getElem?_map, List.getElem?_range' (by omega), Option.map_some]
        have : point (UInt8.ofNat (1 + 1 * c)) = ((c + 1 : ℕ) : ZMod L) := by
          rw [point, UInt8.toNat_ofNat', Nat.mod_eq_of_lt (by norm_num; omega), one_mul, add_comm]
        rw [this]) hne
    refine ⟨S, hS, fun delta h => hacc delta ?_⟩
    simp only at h
    cases hv : vspsCheck G junk scratch 3 A delta with
    | ub u => rw [hv] at h; cases h
    | ok x =>
      rw [hv, C.ok_bind] at h
      split at h
      · cases h
      · rename_i hx
        rw [not_not.1 hx]
  · rw [h1]
    exact ⟨∅, by simp, fun delta h => by cases h⟩

end

/-- Commitments to the values at 1, …, `n`. -/
noncomputable def commitments (f : (ZMod L)[X]) (n : ℕ) : List B32 :=
  (List.range n).map fun c => enc (f.eval ((c + 1 : ℕ) : ZMod L) • (base : G))

theorem commitments_commit (f : (ZMod L)[X]) (n : ℕ) : CommitsTo G f (commitments G f n) := by
  intro c hc
  rw [commitments, List.length_map, List.length_range] at hc
  rw [commitments, List.getElem?_map, List.getElem?_range hc]
  rfl

section
attribute [local instance] Ristretto.toy

/-- Commitments to `7 + 5x + 3x³` at 1, …, 8. -/
example : CommitsTo (ZMod L) (polyOf [7, 5, 0, 3]) (commitments (ZMod L) (polyOf [7, 5, 0, 3]) 8) ∧
    (polyOf [7, 5, 0, 3]).degree < (((3 : UInt8).toNat + 1 : ℕ) : WithBot ℕ) ∧
    (polyOf [7, 5, 0, 3] : (ZMod L)[X]).eval 0 ≠ (polyOf [7, 5, 0, 3]).eval 1 := by
  refine ⟨commitments_commit _ _ _, polyOf_degree _, ?_⟩
  simp only [polyOf, eval_add, eval_mul, eval_C, eval_X, eval_zero]
  intro h
  have : ((8 : ℕ) : ZMod L) = 0 := by
    push_cast
    linear_combination -h
  exact Toy.natCast_ne_zero (by norm_num) (by norm_num) this
end

end Verif.Props
