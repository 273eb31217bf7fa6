import Verif.Model.Dkg
import Verif.Proofs.Toprf

/-!
# Lemmas about the DKG model
-/

set_option linter.unusedSectionVars false

namespace Verif.Spec

/-- Feldman's check value: the commitments evaluated in the exponent, `∑ x^k • C_k`. -/
def commitEval {G : Type} [Ristretto G] (x : ZMod L) : List G → G
  | [] => 0
  | c :: cs => c + x • commitEval x cs

end Verif.Spec

namespace Verif.Dkg

open Ristretto Spec Polynomial Verif.Toprf

variable (G : Type) [Ristretto G]

theorem powLoop_eq (z : ZMod L) : ∀ (m : ℕ) (t : ZMod L), powLoop (B32.ofZ z) m (B32.ofZ t) = B32.ofZ (t * z ^ m)
  | 0, t => by simp [powLoop]
  | m + 1, t => by
    rw [powLoop, mul_ofZ, powLoop_eq z m]
    congr 1; ring

theorem one_eq : B32.ofByte 1 = B32.ofZ 1 := by rw [ofByte_eq]; simp [point]

theorem polyLoop_eq (z : ZMod L) : ∀ (a : List B32) (t : ℕ) (v : ZMod L),
    polyLoop (B32.ofZ z) a t (B32.ofZ v) = B32.ofZ (v + z ^ t * (polyOf (a.map (·.val))).eval z)
  | [], t, v => by simp [polyLoop, polyOf]
  | b :: a, t, v => by
    rw [polyLoop, one_eq, powLoop_eq, scalarMul_eq, add_ofZ, polyLoop_eq z a]
    congr 1
    simp only [List.map_cons, polyOf_eval_cons, B32.val_ofZ]
    ring

theorem polynom_eq (j : UInt8) (a0 : B32) (a : List B32) (h : a0.Canonical) :
    polynom j (a0 :: a) = .ok ⟨j, B32.ofZ ((polyOf ((a0 :: a).map (·.val))).eval (point j))⟩ := by
  unfold polynom
  rw [ld_ok (by simp), C.ok_bind]
  simp only [List.drop_one, List.tail_cons, List.getElem_cons_zero]
  rw [← B32.ofZ_val h, ofByte_eq, polyLoop_eq]
  congr 3
  simp only [List.map_cons, polyOf_eval_cons, B32.val_ofZ, pow_one]

theorem commitLoop_eq (rnd : ℕ → B32) : ∀ (m k : ℕ) (cs : List B32), k + m ≤ cs.length →
    commitLoop G rnd m k cs =
      .ok (cs.take k ++ (List.range' k m).map (fun i => (scalarmultBase G (rnd i)).2) ++ cs.drop (k + m))
  | 0, k, cs, _ => by simp [commitLoop]
  | m + 1, k, cs, h => by
    unfold commitLoop
    rw [st_ok (by omega), C.ok_bind, commitLoop_eq rnd m (k + 1) _ (by simp; omega)]
    congr 1
    have e1 : (cs.set k (scalarmultBase G (rnd k)).2).take (k + 1) = cs.take k ++ [(scalarmultBase G (rnd k)).2] := by
      rw [List.take_set, List.take_add_one, List.getElem?_eq_getElem (by omega : k < cs.length)]
      rw [List.set_append_right _ _ (by simp)]
      simp [Nat.min_eq_left (by omega : k ≤ cs.length)]
    have e2 : (cs.set k (scalarmultBase G (rnd k)).2).drop (k + 1 + m) = cs.drop (k + (m + 1)) := by
      rw [List.drop_set_of_lt (by omega)]
      congr 1; omega
    rw [e1, e2, List.range'_succ]
    simp

theorem sharesLoop_eq (a0 : B32) (a : List B32) (ha : a0.Canonical) (n : UInt8) (hn : n.toNat < 255)
    (shares : List Share) (ho : n.toNat ≤ shares.length) :
    forLeU8 (shareStep (a0 :: a)) n 257 1 shares =
      .ok ((List.range' 1 n.toNat).map (fun k =>
        (⟨UInt8.ofNat k, B32.ofZ ((polyOf ((a0 :: a).map (·.val))).eval (point (UInt8.ofNat k)))⟩ : Share)) ++
        shares.drop n.toNat) := by
  rw [forLeU8_eq _ n hn 257 1 shares (by simp) (by simp; omega)]
  rw [← foldlM_st _ n.toNat shares ho]
  have e : n.toNat + 1 - (1 : UInt8).toNat = n.toNat := by simp
  rw [e]
  have e1 : (1 : UInt8).toNat = 1 := rfl
  rw [e1]
  apply foldlM_congr'
  intro s k hk
  rw [List.mem_range'_1] at hk
  have h1 : (UInt8.ofNat k).toNat = k := by simp; omega
  have h0 : UInt8.ofNat k ≠ 0 := by
    intro h; rw [h] at h1; simp at h1; omega
  unfold shareStep
  rw [if_neg h0, h1, polynom_eq _ _ _ ha, C.ok_bind]

/-- Polynomial of the dealer who draws `rnd`. -/
noncomputable def dealer (t : ℕ) (rnd : ℕ → B32) : (ZMod L)[X] := polyOf ((List.range t).map fun k => (rnd k).val)

theorem dealer_degree (t : ℕ) (rnd : ℕ → B32) : (dealer t rnd).degree < t := by
  have := polyOf_degree ((List.range t).map fun k => (rnd k).val)
  rwa [List.length_map, List.length_range] at this

theorem dealer_zero (t : ℕ) (ht : 1 ≤ t) (rnd : ℕ → B32) : (dealer t rnd).eval 0 = (rnd 0).val := by
  obtain ⟨t, rfl⟩ := Nat.exists_eq_add_of_le' ht
  rw [dealer, List.range_succ_eq_map, List.map_cons, polyOf_eval_zero]

/-- The share dealt to receiver `k`. -/
noncomputable def dealt (t : ℕ) (rnd : ℕ → B32) (k : UInt8) : Share :=
  ⟨k, B32.ofZ ((dealer t rnd).eval (point k))⟩

/-- Complete description of `dkg_start`. -/
theorem start_eq (n t : UInt8) (rnd : ℕ → B32) (cs : List B32) (shares : List Share) (ht : 1 ≤ t.toNat)
    (hn : n.toNat ≤ 254) (hc : t.toNat ≤ cs.length) (ho : n.toNat ≤ shares.length) (hr : (rnd 0).Canonical) :
    start G true n t rnd cs shares = .ok (0,
      (List.range t.toNat).map (fun k => enc (maskedVal (rnd k) • (base : G))) ++ cs.drop t.toNat,
      (List.range' 1 n.toNat).map (fun k => dealt t.toNat rnd (UInt8.ofNat k)) ++ shares.drop n.toNat) := by
  unfold start
  rw [if_neg (by omega), if_neg (by simp), commitLoop_eq G rnd _ _ _ (by omega), C.ok_bind]
  obtain ⟨m, hm⟩ := Nat.exists_eq_add_of_le' ht
  have e : (List.range t.toNat).map rnd = rnd 0 :: (List.range m).map (fun k => rnd (k + 1)) := by
    rw [hm, List.range_succ_eq_map, List.map_cons, List.map_map]; rfl
  rw [e, sharesLoop_eq _ _ hr n (by omega) shares ho, C.ok_bind, ← e]
  congr 3
  · simp [List.range_eq_range', scalarmultBase]
  · simp [dealt, dealer, Function.comp_def]

/-! ### Verification -/

theorem powLoop_point (self : UInt8) (k : ℕ) (hk : 1 ≤ k) :
    powLoop (B32.ofByte self) (k - 1) (B32.ofByte self) = B32.ofZ (point self ^ k) := by
  rw [ofByte_eq, powLoop_eq]
  congr 1
  rw [← pow_succ', Nat.sub_add_cancel hk]

/-- Well-formed commitment at a position after the first: a valid encoding of an element other than the identity. -/
def Good (c : B32) : Prop := ∃ P : G, dec c = some P ∧ P ≠ 0

theorem point_ne {self : UInt8} (h : self ≠ 0) : point self ≠ 0 := fun hc => h (point_inj (by rw [hc]; simp [point]))

/-- The loop on well-formed commitments and a valid start value. -/
theorem verifyLoop_good (scratch : B32) (self : UInt8) (hs : self ≠ 0) : ∀ (Cs : List G) (pre : List B32)
    (post : List B32) (A : G), 1 ≤ pre.length → (∀ c ∈ Cs, c ≠ 0) →
    verifyLoop G scratch (B32.ofByte self) (pre ++ Cs.map enc ++ post) Cs.length pre.length (enc A) =
      .ok (some (enc (A + point self ^ pre.length • commitEval (point self) Cs)))
  | [], pre, post, A, _, _ => by simp [verifyLoop, commitEval]
  | c :: Cs, pre, post, A, hp, hc => by
    rw [List.length_cons, verifyLoop]
    have hl : ld (pre ++ List.map enc (c :: Cs) ++ post) pre.length = .ok (enc c) := by
      rw [ld_ok (by simp)]; simp
    rw [hl, C.ok_bind, powLoop_point self _ hp]
    have hne : point self ^ pre.length • c ≠ 0 := smul_ne_zero (pow_ne_zero _ (point_ne hs)) (hc c (by simp))
    have hsm : scalarmult G scratch (B32.ofZ (point self ^ pre.length)) (enc c) =
        (0, enc (point self ^ pre.length • c)) := by
      rw [scalarmult_enc_ok _ _ (by rwa [maskedVal_ofZ]), maskedVal_ofZ]
    simp only [hsm]
    rw [if_neg (by simp), pointAdd_enc]
    have ih := verifyLoop_good scratch self hs Cs (pre ++ [enc c]) post (A + point self ^ pre.length • c) (by simp)
      (fun c' h => hc c' (by simp [h]))
    simp only [List.append_assoc, List.cons_append, List.nil_append, List.length_append, List.length_singleton,
      List.map_cons] at ih ⊢
    rw [ih]
    congr 3
    rw [commitEval, smul_add, smul_smul, pow_succ, add_assoc]

/-- The loop on well-formed commitments but an invalid start value leaves the latter. -/
theorem verifyLoop_invalid0 (scratch : B32) (self : UInt8) (hs : self ≠ 0) (A : B32) (hA : dec (G := G) A = none) :
    ∀ (Cs : List G) (pre : List B32) (post : List B32), 1 ≤ pre.length → (∀ c ∈ Cs, c ≠ 0) →
    verifyLoop G scratch (B32.ofByte self) (pre ++ Cs.map enc ++ post) Cs.length pre.length A = .ok (some A)
  | [], pre, post, _, _ => by simp [verifyLoop]
  | c :: Cs, pre, post, hp, hc => by
    rw [List.length_cons, verifyLoop]
    have hl : ld (pre ++ List.map enc (c :: Cs) ++ post) pre.length = .ok (enc c) := by
      rw [ld_ok (by simp)]; simp
    rw [hl, C.ok_bind, powLoop_point self _ hp]
    have hne : point self ^ pre.length • c ≠ 0 := smul_ne_zero (pow_ne_zero _ (point_ne hs)) (hc c (by simp))
    have hsm : scalarmult G scratch (B32.ofZ (point self ^ pre.length)) (enc c) =
        (0, enc (point self ^ pre.length • c)) := by
      rw [scalarmult_enc_ok _ _ (by rwa [maskedVal_ofZ]), maskedVal_ofZ]
    simp only [hsm]
    have ha : (pointAdd G A A (enc (point self ^ pre.length • c))).2 = A := by simp [pointAdd, hA]
    rw [if_neg (by simp), ha]
    have ih := verifyLoop_invalid0 scratch self hs A hA Cs (pre ++ [enc c]) post (by simp)
      (fun c' h => hc c' (by simp [h]))
    simp only [List.append_assoc, List.cons_append, List.nil_append, List.length_append, List.length_singleton,
      List.map_cons] at ih ⊢
    exact ih

/-- A malformed commitment after the first ends the loop with -1. -/
theorem verifyLoop_bad (scratch : B32) (self : UInt8) (cs : List B32) : ∀ (m k : ℕ) (A : B32), 1 ≤ k → k + m ≤ cs.length →
    (∃ i, k ≤ i ∧ i < k + m ∧ ∃ c, cs[i]? = some c ∧ ¬ Good G c) →
    verifyLoop G scratch (B32.ofByte self) cs m k A = .ok none
  | 0, k, A, _, _, h => by obtain ⟨i, h1, h2, _⟩ := h; omega
  | m + 1, k, A, hk, hl, h => by
    rw [verifyLoop, ld_ok (by omega), C.ok_bind, powLoop_point self _ hk]
    by_cases hret : (scalarmult G scratch (B32.ofZ (point self ^ k)) cs[k]).1 = 0
    · simp only [hret, ne_eq, not_true_eq_false, if_false]
      apply verifyLoop_bad scratch self cs m (k + 1) _ (by omega) (by omega)
      obtain ⟨i, h1, h2, c, hc, hg⟩ := h
      refine ⟨i, ?_, by omega, c, hc, hg⟩
      rcases Nat.lt_or_ge k i with h | h
      · omega
      · exfalso
        have : i = k := by omega
        subst this
        rw [List.getElem?_eq_getElem (by omega)] at hc
        apply hg
        rw [← Option.some.inj hc]
        unfold scalarmult at hret
        cases hd : dec (G := G) cs[i] with
        | none => rw [hd] at hret; simp at hret
        | some P =>
          refine ⟨P, hd, fun hP => ?_⟩
          rw [hd, hP] at hret
          simp [enc_zero] at hret
    · simp [hret]

theorem exists_good_list (cs : List B32) (h : ∀ c ∈ cs, Good G c) : ∃ Cs : List G, cs = Cs.map enc ∧ ∀ c ∈ Cs, c ≠ 0 := by
  induction cs with
  | nil => exact ⟨[], rfl, by simp⟩
  | cons c cs ih =>
    obtain ⟨Cs, h1, h2⟩ := ih (fun c' hc => h c' (by simp [hc]))
    obtain ⟨P, hP, hP0⟩ := h c (by simp)
    refine ⟨P :: Cs, by rw [List.map_cons, ← h1, enc_dec _ _ hP], ?_⟩
    intro c' hc
    rw [List.mem_cons] at hc
    rcases hc with rfl | hc
    · exact hP0
    · exact h2 c' hc

/-- What dealer and receiver agree on: the first commitment is valid and the check equation holds. -/
def Consistent (t self : UInt8) (cs : List B32) (share : Share) : Prop :=
  ∃ Cs : List G, cs.take t.toNat = Cs.map enc ∧ maskedVal share.value • (base : G) = commitEval (point self) Cs

/-- Complete description of `dkg_verify_commitment`. -/
theorem verifyCommitment_eq (scratch : B32) (t self i : UInt8) (cs : List B32) (share : Share) (ht : 1 ≤ t.toNat)
    (hl : t.toNat ≤ cs.length) (hs : self ≠ 0) (hi : i ≠ self) [Decidable (∀ c ∈ (cs.take t.toNat).drop 1, Good G c)]
    [Decidable (Consistent G t self cs share)] :
    verifyCommitment G scratch t self i cs share =
      .ok (if ∀ c ∈ (cs.take t.toNat).drop 1, Good G c then if Consistent G t self cs share then 0 else 1 else -1) := by
  obtain ⟨c0, cs', rfl⟩ : ∃ c0 cs', cs = c0 :: cs' := by
    cases cs with
    | nil => simp at hl; omega
    | cons c cs => exact ⟨c, cs, rfl⟩
  obtain ⟨m, hm⟩ := Nat.exists_eq_add_of_le' ht
  unfold verifyCommitment
  rw [if_neg hi, ld_ok (by simp), C.ok_bind]
  simp only [List.getElem_cons_zero]
  have em : t.toNat - 1 = m := by omega
  have ed : ((c0 :: cs').take t.toNat).drop 1 = cs'.take m := by rw [hm]; simp
  have hml : m ≤ cs'.length := by simp at hl; omega
  by_cases hg : ∀ c ∈ cs'.take m, Good G c
  · rw [if_pos (by rwa [ed])]
    obtain ⟨Cs, h1, h2⟩ := exists_good_list G _ hg
    have hlen : Cs.length = m := by
      have := congrArg List.length h1
      simp at this; omega
    have hcs : c0 :: cs' = [c0] ++ Cs.map enc ++ cs'.drop m := by
      rw [← h1]; simp
    cases hd : dec (G := G) c0 with
    | none =>
      have := verifyLoop_invalid0 G scratch self hs c0 hd Cs [c0] (cs'.drop m) (by simp) h2
      rw [← hcs, hlen] at this
      rw [em]
      simp only [List.length_singleton] at this
      rw [this, C.ok_bind]
      have hv : (scalarmultBase G share.value).2 ≠ c0 := by
        intro hc
        have := dec_enc (maskedVal share.value • (base : G))
        rw [show enc (maskedVal share.value • (base : G)) = c0 from hc, hd] at this
        cases this
      have hnc : ¬ Consistent G t self (c0 :: cs') share := by
        rintro ⟨Ds, hD, _⟩
        rw [hm, List.take_succ_cons] at hD
        cases Ds with
        | nil => simp at hD
        | cons D Ds =>
          rw [List.map_cons, List.cons.injEq] at hD
          rw [hD.1, dec_enc] at hd; cases hd
      simp only [hv, ne_eq, not_false_eq_true, if_true, hnc, if_false]
    | some P =>
      have hP := enc_dec _ _ hd
      have := verifyLoop_good G scratch self hs Cs [c0] (cs'.drop m) P (by simp) h2
      rw [← hcs, hlen, hP] at this
      rw [em]
      simp only [List.length_singleton, pow_one] at this
      rw [this, C.ok_bind]
      have hiff : (scalarmultBase G share.value).2 = enc (P + point self • commitEval (point self) Cs) ↔
          Consistent G t self (c0 :: cs') share := by
        constructor
        · intro h
          refine ⟨P :: Cs, ?_, ?_⟩
          · rw [hm, List.take_succ_cons, List.map_cons, h1, hP]
          · exact enc_injective h
        · rintro ⟨Ds, hD, he⟩
          have : Ds = P :: Cs := by
            apply List.map_injective_iff.2 enc_injective
            rw [← hD, hm, List.take_succ_cons, List.map_cons, h1, hP]
          rw [this] at he
          show enc _ = enc _
          rw [he]; rfl
      by_cases hc : Consistent G t self (c0 :: cs') share
      · simp [hc, hiff.2 hc]
      · have : ¬ (scalarmultBase G share.value).2 = enc (P + point self • commitEval (point self) Cs) :=
          fun h => hc (hiff.1 h)
        simp [hc, this]
  · rw [if_neg (by rwa [ed])]
    push Not at hg
    obtain ⟨c, hc, hbad⟩ := hg
    obtain ⟨i', hi', rfl⟩ := List.mem_iff_getElem.1 hc
    rw [em, verifyLoop_bad G scratch self _ m 1 c0 (by omega) (by simp; omega)]
    · rfl
    · refine ⟨i' + 1, by omega, ?_, _, ?_, hbad⟩
      · simp at hi'; omega
      · simp at hi'
        rw [List.getElem?_cons_succ, List.getElem?_eq_getElem (by omega)]
        simp

/-- The loop of `dkg_verify_commitments` when no dealer's commitments are malformed. -/
theorem verifyAll_eq (scratch : B32) (n t self : UInt8) (cs : List (List B32)) (shares : List Share)
    (hn : n.toNat ≤ 254) (hc : n.toNat ≤ cs.length) (hs : n.toNat ≤ shares.length) (bad : UInt8 → Bool)
    (hv : ∀ (i : UInt8) (c : List B32) (s : Share), 1 ≤ i.toNat → i.toNat ≤ n.toNat → i ≠ self →
      cs[i.toNat - 1]? = some c → shares[i.toNat - 1]? = some s →
      verifyCommitment G scratch t self i c s = .ok (if bad i then 1 else 0)) :
    ∀ (fuel : ℕ) (i : UInt8) (acc rest : List UInt8), 1 ≤ i.toNat → i.toNat ≤ n.toNat + 1 →
      n.toNat + 1 - i.toNat < fuel → acc.length ≤ i.toNat - 1 → n.toNat ≤ acc.length + rest.length →
      verifyAll G scratch n t self cs shares fuel i (acc ++ rest) (UInt8.ofNat acc.length) =
        (let bads := acc ++ ((List.range' i.toNat (n.toNat + 1 - i.toNat)).map UInt8.ofNat).filter
            (fun i => i ≠ self ∧ bad i = true)
        .ok (if bads = [] then 0 else 1, bads ++ rest.drop (bads.length - acc.length), UInt8.ofNat bads.length)) := by
  intro fuel
  induction fuel with
  | zero => intro i acc rest _ _ h; omega
  | succ f ih =>
    intro i acc rest h1 hi hf hacc hr
    have hlen : acc.length ≤ 254 := by omega
    by_cases hin : i ≤ n
    · have hin' : i.toNat ≤ n.toNat := hin
      have hi1 : (i + 1).toNat = i.toNat + 1 := by rw [UInt8.toNat_add]; simp; omega
      have hrange : List.range' i.toNat (n.toNat + 1 - i.toNat) =
          i.toNat :: List.range' (i + 1).toNat (n.toNat + 1 - (i + 1).toNat) := by
        have : n.toNat + 1 - i.toNat = (n.toNat + 1 - (i + 1).toNat) + 1 := by omega
        rw [this, List.range'_succ, hi1]
      rw [verifyAll, if_pos hin, hrange, List.map_cons, UInt8.ofNat_toNat]
      by_cases hself : i = self
      · rw [if_pos hself, ih (i + 1) acc rest (by omega) (by omega) (by omega) (by omega) hr]
        rw [List.filter_cons_of_neg (by simp [hself])]
      · have h0 : i ≠ 0 := by rintro rfl; simp at h1
        rw [if_neg hself, if_neg h0, ld_ok (by omega), C.ok_bind, ld_ok (by omega), C.ok_bind,
          hv i _ _ h1 hin' hself (List.getElem?_eq_getElem (by omega)) (List.getElem?_eq_getElem (by omega)), C.ok_bind]
        cases hb : bad i with
        | false =>
          simp only [Bool.false_eq_true, if_false]
          rw [if_neg (by decide), if_true, ih (i + 1) acc rest (by omega) (by omega) (by omega) (by omega) hr]
          rw [List.filter_cons_of_neg (by simp [hb])]
        | true =>
          simp only [if_true]
          rw [if_neg (by decide), if_neg (by decide)]
          have hal : (UInt8.ofNat acc.length).toNat = acc.length := by simp; omega
          rw [hal, st_ok (by simp; omega), C.ok_bind]
          obtain ⟨r, rest', rfl⟩ : ∃ r rest', rest = r :: rest' := by
            cases rest with
            | nil => simp at hr; omega
            | cons r rest' => exact ⟨r, rest', rfl⟩
          have e1 : (acc ++ r :: rest').set acc.length i = (acc ++ [i]) ++ rest' := by
            rw [List.set_append_right _ _ (by omega)]; simp
          have e2 : UInt8.ofNat acc.length + 1 = UInt8.ofNat (acc ++ [i]).length := by
            apply UInt8.toNat_inj.1
            rw [UInt8.toNat_add, hal]; simp
          rw [e1, e2, ih (i + 1) (acc ++ [i]) rest' (by omega) (by omega) (by omega) (by simp; omega)
            (by simp at hr ⊢; omega)]
          rw [List.filter_cons_of_pos (by simp [hself, hb])]
          generalize List.filter (fun i => decide (i ≠ self ∧ bad i = true)) _ = F
          have key : acc ++ i :: F = acc ++ [i] ++ F := by simp
          rw [key]
          have e3 : ∀ l : List UInt8, (acc ++ [i] ++ l).length - acc.length =
              ((acc ++ [i] ++ l).length - (acc ++ [i]).length) + 1 := fun l => by simp; omega
          rw [e3, List.drop_succ_cons]
    · have hin' : ¬ i.toNat ≤ n.toNat := hin
      have : n.toNat + 1 - i.toNat = 0 := by omega
      rw [verifyAll, if_neg hin, this]
      simp only [List.range'_zero, List.map_nil, List.filter_nil, List.append_nil, Nat.sub_self, List.drop_zero]
      congr 2
      have hal : (UInt8.ofNat acc.length).toNat = acc.length := by simp; omega
      by_cases ha : acc = []
      · subst ha; simp
      · rw [if_neg ha, if_pos]
        intro h
        have := congrArg UInt8.toNat h
        rw [hal] at this
        exact ha (List.length_eq_zero_iff.1 (by simpa using this))

/-! ### Finish and reconstruct -/

theorem fold_add_canonical {α : Type} (g : α → ZMod L) (v : α → B32) : ∀ (l : List α) (A : ZMod L),
    (∀ a ∈ l, v a = B32.ofZ (g a)) →
    l.foldl (fun acc a => scalarAdd acc (v a)) (B32.ofZ A) = B32.ofZ (A + (l.map g).sum)
  | [], A, _ => by simp
  | a :: l, A, h => by
    rw [List.foldl_cons, h a (by simp), add_ofZ, fold_add_canonical g v l _ (fun a ha => h a (by simp [ha]))]
    simp [add_assoc]

/-- `dkg_finish` on values below `2^255` (which includes all canonical ones) adds the residues. -/
theorem finish_eq (n : UInt8) (shares : List Share) (xi : Share) (hl : n.toNat ≤ shares.length)
    (hv : ∀ s ∈ shares, s.value.toNat < 2 ^ 255) :
    finish n shares xi = .ok ⟨xi.index, B32.ofZ (((shares.take n.toNat).map (·.value.val)).sum)⟩ := by
  unfold finish
  rw [rd_ok (by omega), C.ok_bind, List.drop_zero]
  congr 2
  have : ∀ (l : List Share) (A : ZMod L), (∀ s ∈ l, s.value.toNat < 2 ^ 255) →
      l.foldl (fun acc s => scalarAdd acc s.value) (B32.ofZ A) = B32.ofZ (A + (l.map (·.value.val)).sum) := by
    intro l
    induction l with
    | nil => intro A _; simp
    | cons s l ih =>
      intro A h
      have hs := h s (by simp)
      have hA : (B32.ofZ A).toNat < L := B32.canonical_ofZ A
      have h255 := L_lt_255
      have e : scalarAdd (B32.ofZ A) s.value = B32.ofZ (A + s.value.val) := by
        rw [scalarAdd_eq_of_lt, B32.val_ofZ]
        calc (B32.ofZ A).toNat + s.value.toNat < 2 ^ 255 + 2 ^ 255 := by omega
          _ = 2 ^ 256 := by norm_num
      rw [List.foldl_cons, e, ih _ (fun s hs => h s (by simp [hs]))]
      simp [add_assoc]
  rw [zero32_eq, this _ _ (fun s hs => hv s (List.mem_of_mem_take hs)), zero_add]

/-- `dkg_reconstruct` interpolates at 0. -/
theorem reconstruct_eq (rs : List Share) (hne : rs ≠ []) :
    reconstruct rs = .ok (B32.ofZ ((rs.map fun r => lagrange (rs.map (·.index)) r.index * r.value.val).sum)) := by
  unfold reconstruct
  rw [if_neg (by simpa using hne)]
  simp only []
  congr 1
  have := fold_add_canonical (fun r : Share => lagrange (rs.map (·.index)) r.index * r.value.val)
    (fun r => scalarMul r.value (Toprf.coeff r.index (rs.map (·.index)))) rs 0 (by
      intro r _
      rw [scalarMul_eq, coeff_eq, B32.val_ofZ, mul_comm])
  rw [zero32_eq, this, zero_add]

theorem reconstruct_recovers (f : (ZMod L)[X]) (rs : List Share) (hne : rs ≠ []) (hn : (rs.map (·.index)).Nodup)
    (hf : f.degree < rs.length) (hr : ∀ r ∈ rs, r.value.val = f.eval (point r.index)) :
    reconstruct rs = .ok (B32.ofZ (f.eval 0)) := by
  rw [reconstruct_eq rs hne]
  congr 2
  have := lagrange_sum (rs.map (·.index)) hn f (by simpa using hf)
  rw [List.map_map] at this
  rw [← this]
  congr 1
  apply List.map_congr_left
  intro r hm
  simp only [Function.comp, hr r hm]

end Verif.Dkg
