import Verif.Proofs.Sharing
import Verif.Proofs.Oprf

/-!
# Lemmas about the TOPRF model
-/

set_option linter.unusedSectionVars false

namespace Verif.Toprf

open Ristretto Spec Polynomial

variable (G : Type) [Ristretto G]

theorem ofByte_eq (b : UInt8) : B32.ofByte b = B32.ofZ (point b) :=
  B32.canonical_ext (B32.ofByte_canonical b) (B32.canonical_ofZ _) (by simp [point])

theorem mul_ofZ (a b : ZMod L) : scalarMul (B32.ofZ a) (B32.ofZ b) = B32.ofZ (a * b) := by
  rw [scalarMul_eq, B32.val_ofZ, B32.val_ofZ]

theorem add_ofZ (a b : ZMod L) : scalarAdd (B32.ofZ a) (B32.ofZ b) = B32.ofZ (a + b) := by
  rw [scalarAdd_eq (B32.canonical_ofZ a) (B32.canonical_ofZ b), B32.val_ofZ, B32.val_ofZ]

theorem sub_ofZ (a b : ZMod L) : scalarSub (B32.ofZ a) (B32.ofZ b) = B32.ofZ (a - b) := by
  rw [scalarSub_eq (B32.canonical_ofZ a), B32.val_ofZ, B32.val_ofZ]

theorem coeff_fold (i : UInt8) : ∀ (peers : List UInt8) (a b : ZMod L),
    peers.foldl (coeffStep i) (B32.ofZ a, B32.ofZ b) =
      (B32.ofZ (a * ((peers.filter (· ≠ i)).map point).prod),
       B32.ofZ (b * ((peers.filter (· ≠ i)).map fun j => point j - point i).prod))
  | [], a, b => by simp
  | p :: ps, a, b => by
    rw [List.foldl_cons]
    by_cases h : p = i
    · have : coeffStep i (B32.ofZ a, B32.ofZ b) p = (B32.ofZ a, B32.ofZ b) := by simp [coeffStep, h]
      rw [this, coeff_fold i ps]
      simp [h]
    · have : coeffStep i (B32.ofZ a, B32.ofZ b) p = (B32.ofZ (a * point p), B32.ofZ (b * (point p - point i))) := by
        simp [coeffStep, h, ofByte_eq, mul_ofZ, sub_ofZ]
      rw [this, coeff_fold i ps]
      simp [h, mul_assoc]

/-- `coeff` computes the Lagrange coefficient. -/
theorem coeff_eq (i : UInt8) (peers : List UInt8) : coeff i peers = B32.ofZ (lagrange peers i) := by
  have h1 : B32.ofByte 1 = B32.ofZ 1 := by rw [ofByte_eq]; simp [point]
  unfold coeff
  rw [h1, coeff_fold]
  simp only [one_mul]
  rw [scalarInvert_eq, B32.val_ofZ, mul_ofZ, lagrange]
  congr 1
  induction peers.filter (· ≠ i) with
  | nil => simp
  | cons p ps ih =>
    simp only [List.map_cons, List.prod_cons, ← ih, mul_inv]
    rw [div_eq_mul_inv (point p)]
    ring

theorem mulPow_eq (x : ZMod L) : ∀ (j : ℕ) (t : ZMod L), mulPow (B32.ofZ x) j (B32.ofZ t) = B32.ofZ (t * x ^ j)
  | 0, t => by simp [mulPow]
  | j + 1, t => by
    rw [mulPow, mul_ofZ, mulPow_eq x j]
    congr 1; ring

/-- Adding a canonical scalar to `v` does not overflow. -/
def NoOverflow (v : B32) : Prop := v.toNat + L ≤ 2 ^ 256

theorem NoOverflow.of_canonical {v : B32} (h : v.Canonical) : NoOverflow v := by
  unfold NoOverflow B32.Canonical at *
  have := L_lt_255
  calc v.toNat + L ≤ 2 ^ 255 + 2 ^ 255 := by omega
    _ = 2 ^ 256 := by norm_num

theorem add_noOverflow {v : B32} (h : NoOverflow v) (z : ZMod L) : scalarAdd v (B32.ofZ z) = B32.ofZ (v.val + z) := by
  rw [scalarAdd_eq_of_lt, B32.val_ofZ]
  rw [B32.toNat_ofZ]
  have := ZMod.val_lt z
  unfold NoOverflow at h
  omega

theorem shareLoop_eq (x : ZMod L) : ∀ (a : List B32) (j : ℕ) (v : ZMod L),
    shareLoop (B32.ofZ x) a j (B32.ofZ v) = B32.ofZ (v + x ^ (j + 1) * (polyOf (a.map (·.val))).eval x)
  | [], j, v => by simp [shareLoop, polyOf]
  | b :: a, j, v => by
    rw [shareLoop, scalarMul_eq, mulPow_eq, add_ofZ, shareLoop_eq x a]
    congr 1
    simp only [List.map_cons, polyOf_eval_cons, B32.val_ofZ]
    ring

/-- The value loop on a secret that is not necessarily canonical, with at least one coefficient. -/
theorem shareLoop_eq' (x : ZMod L) (a : List B32) (ha : a ≠ []) (s : B32) (hs : NoOverflow s) :
    shareLoop (B32.ofZ x) a 0 s = B32.ofZ ((polyOf (s.val :: a.map (·.val))).eval x) := by
  cases a with
  | nil => exact absurd rfl ha
  | cons b a =>
    rw [shareLoop, scalarMul_eq, mulPow_eq, add_noOverflow hs, shareLoop_eq]
    congr 1
    simp only [List.map_cons, polyOf_eval_cons, B32.val_ofZ]
    ring

theorem foldlM_congr' {α β : Type} {f g : β → α → C β} : ∀ (l : List α) (s : β),
    (∀ s, ∀ k ∈ l, f s k = g s k) → l.foldlM f s = l.foldlM g s
  | [], _, _ => rfl
  | k :: l, s, h => by
    rw [List.foldlM_cons, List.foldlM_cons, h s k (by simp)]
    congr 1
    funext s'
    exact foldlM_congr' l s' (fun s k hk => h s k (by simp [hk]))

theorem foldlM_st {α : Type} (g : ℕ → α) : ∀ (n : ℕ) (out : List α), n ≤ out.length →
    (List.range' 1 n).foldlM (fun s k => st s (k - 1) (g k)) out =
      C.ok ((List.range' 1 n).map g ++ out.drop n) := by
  intro n
  induction n with
  | zero => intro out _; simp
  | succ n ih =>
    intro out h
    rw [List.range'_concat, List.foldlM_append, ih out (by omega)]
    simp only [C.ok_bind, List.foldlM_cons, List.foldlM_nil, one_mul]
    have e : 1 + n - 1 = n := by omega
    rw [e, st_ok (by simp; omega), C.ok_bind, C.pure_eq]
    congr 1
    rw [List.map_append, List.set_append_right _ _ (by simp)]
    simp only [List.length_map, List.length_range', Nat.sub_self, List.map_cons, List.map_nil, List.append_assoc,
      List.cons_append, List.nil_append]
    congr 1
    rw [List.drop_eq_getElem_cons (by omega : n < out.length), List.set_cons_zero]

/-- The shares created: index and value for `1..n`, in order. -/
theorem createShares_eq (secret : B32) (n t : UInt8) (rnd : ℕ → B32) (out : List Share) (ht : 2 ≤ t.toNat)
    (hn : n.toNat < 255) (ho : n.toNat ≤ out.length) :
    createShares secret n t rnd out =
      .ok ((List.range' 1 n.toNat).map (fun k =>
        ⟨UInt8.ofNat k, shareLoop (B32.ofByte (UInt8.ofNat k)) ((List.range (t.toNat - 1)).map rnd) 0 secret⟩)
        ++ out.drop n.toNat) := by
  unfold createShares
  rw [if_neg (by omega)]
  simp only []
  rw [forLeU8_eq _ n hn 257 1 out (by simp) (by simp; omega)]
  rw [← foldlM_st _ n.toNat out ho]
  have e : n.toNat + 1 - (1 : UInt8).toNat = n.toNat := by simp
  rw [e]
  have e1 : (1 : UInt8).toNat = 1 := rfl
  rw [e1]
  apply foldlM_congr'
  intro s k hk
  rw [List.mem_range'_1] at hk
  have h1 : (UInt8.ofNat k).toNat = k := by simp; omega
  have h0 : UInt8.ofNat k ≠ 0 := by
    intro h; rw [h] at h1; simp at h1; omega
  unfold shareStep
  rw [if_neg h0, h1]

/-! ### Sorting -/

theorem sink_spec : ∀ (d : ℕ) (arr idx : List UInt8), d < arr.length → arr.length = idx.length →
    ∃ arr' idx', sink d arr idx = .ok (arr', idx') ∧ arr'.Perm arr ∧ idx'.Perm idx
  | 0, arr, idx, _, _ => ⟨arr, idx, rfl, .refl _, .refl _⟩
  | d + 1, arr, idx, hd, hl => by
    unfold sink
    rw [ld_ok hd, ld_ok (by omega : d < arr.length)]
    simp only [C.ok_bind]
    split
    · rw [ld_ok (by omega : d + 1 < idx.length), ld_ok (by omega : d < idx.length)]
      simp only [C.ok_bind]
      rw [st_ok hd, C.ok_bind, st_ok (by omega : d + 1 < idx.length), C.ok_bind, st_ok (by simp; omega), C.ok_bind,
        st_ok (by simp; omega), C.ok_bind]
      obtain ⟨arr', idx', h, h1, h2⟩ := sink_spec d ((arr.set (d + 1) arr[d]).set d arr[d + 1])
        ((idx.set (d + 1) idx[d]).set d idx[d + 1]) (by simp; omega) (by simp; omega)
      exact ⟨arr', idx', h, h1.trans (List.set_set_perm _ _), h2.trans (List.set_set_perm _ _)⟩
    · exact ⟨arr, idx, rfl, .refl _, .refl _⟩

theorem sortLoop_spec : ∀ (k c : ℕ) (arr idx : List UInt8), c + k ≤ arr.length → arr.length = idx.length →
    ∃ arr' idx', sortLoop k c arr idx = .ok (arr', idx') ∧ arr'.Perm arr ∧ idx'.Perm idx
  | 0, _, arr, idx, _, _ => ⟨arr, idx, rfl, .refl _, .refl _⟩
  | k + 1, c, arr, idx, hc, hl => by
    obtain ⟨a1, i1, h, h1, h2⟩ := sink_spec c arr idx (by omega) hl
    unfold sortLoop
    rw [h, C.ok_bind]
    have e1 := h1.length_eq
    have e2 := h2.length_eq
    obtain ⟨a2, i2, h', h1', h2'⟩ := sortLoop_spec k (c + 1) a1 i1 (by omega) (by omega)
    exact ⟨a2, i2, h', h1'.trans h1, h2'.trans h2⟩

/-- `sort_parts` stays in bounds and returns a permutation of the positions. -/
theorem sortParts_spec (parts : List Share) (hn : parts.length ≠ 0) :
    ∃ order, sortParts parts = .ok order ∧ order.Perm ((List.range parts.length).map UInt8.ofNat) := by
  obtain ⟨a, i, h, _, h2⟩ := sortLoop_spec (parts.length - 1) 1 (parts.map (·.index))
    ((List.range parts.length).map UInt8.ofNat) (by simp; omega) (by simp)
  exact ⟨i, by simp only [sortParts, h, C.ok_bind], h2⟩

theorem order_map {parts : List Share} {order : List UInt8} (hlen : parts.length ≤ 255)
    (h : order.Perm ((List.range parts.length).map UInt8.ofNat)) :
    (order.map UInt8.toNat).Perm (List.range parts.length) := by
  refine (h.map UInt8.toNat).trans ?_
  rw [List.map_map]
  have : (List.range parts.length).map (UInt8.toNat ∘ UInt8.ofNat) = (List.range parts.length).map id := by
    apply List.map_congr_left
    intro k hk
    rw [List.mem_range] at hk
    simp; omega
  rw [this, List.map_id]

/-- The responses in sorted order are a permutation of the responses. -/
theorem order_perm {parts : List Share} {order : List Nat} (h : order.Perm (List.range parts.length)) (d : Share) :
    (order.map fun o => parts.getD o d).Perm parts := by
  refine (h.map _).trans ?_
  have : (List.range parts.length).map (fun o => parts.getD o d) = parts := by
    apply List.ext_getElem
    · simp
    · intro i h1 h2
      simp [h2]
  rw [this]

theorem fillIndexes_spec (responses : List Share) : ∀ (order indexes : List UInt8),
    indexes.length = responses.length → (∀ o ∈ order, o.toNat < responses.length) →
    ∃ indexes', fillIndexes responses order indexes = .ok indexes' ∧ indexes'.length = responses.length ∧
      ∀ (k : ℕ) (hk : k < responses.length), (k ∈ order.map UInt8.toNat ∨ indexes[k]? = some responses[k].index) →
        indexes'[k]? = some responses[k].index
  | [], indexes, hl, _ => ⟨indexes, rfl, hl, fun k hk h => by simpa using h⟩
  | o :: order, indexes, hl, ho => by
    have ho' := ho o (by simp)
    obtain ⟨idx, h, h1, h2⟩ := fillIndexes_spec responses order (indexes.set o.toNat (responses[o.toNat].index))
      (by simpa using hl) (fun o' h' => ho o' (by simp [h']))
    refine ⟨idx, ?_, h1, ?_⟩
    · unfold fillIndexes
      rw [ld_ok ho', C.ok_bind, st_ok (by omega), C.ok_bind, h]
    · intro k hk hor
      apply h2 k hk
      by_cases hko : k ∈ order.map UInt8.toNat
      · exact Or.inl hko
      · right
        rw [List.getElem?_set]
        by_cases hke : o.toNat = k
        · subst hke; simp [hl, hk]
        · rw [if_neg hke]
          rcases hor with hor | hor
          · rw [List.map_cons, List.mem_cons] at hor
            rcases hor with rfl | hor
            · exact absurd rfl hke
            · exact absurd hor hko
          · exact hor

theorem fillIndexes_eq (responses : List Share) (order indexes : List UInt8) (hl : indexes.length = responses.length)
    (h : (order.map UInt8.toNat).Perm (List.range responses.length)) :
    fillIndexes responses order indexes = .ok (responses.map (·.index)) := by
  obtain ⟨idx, h1, h2, h3⟩ := fillIndexes_spec responses order indexes hl (fun o ho => by
    have : o.toNat ∈ order.map UInt8.toNat := List.mem_map_of_mem ho
    simpa using h.subset this)
  rw [h1]
  congr 1
  apply List.ext_getElem?
  intro k
  by_cases hk : k < responses.length
  · rw [h3 k hk (Or.inl (h.mem_iff.2 (by simpa using hk)))]
    simp [hk]
  · rw [List.getElem?_eq_none (by omega), List.getElem?_eq_none (by simp; omega)]

/-! ### Multiplication -/

/-- `multLoop` on the responses themselves, in the order of processing. -/
def multPure (indexes : List UInt8) (scratch : B32) : List Share → B32 → Int × B32
  | [], result => (0, result)
  | r :: rs, result =>
    let m := scalarmult G scratch (coeff r.index indexes) r.value
    if m.1 ≠ 0 then (1, result) else multPure indexes scratch rs (pointAdd G result result m.2).2

theorem multLoop_eq (indexes : List UInt8) (responses : List Share) (scratch : B32) (d : Share) :
    ∀ (order : List UInt8) (result : B32), (∀ o ∈ order, o.toNat < responses.length) →
      multLoop G indexes responses scratch order result =
        .ok (multPure G indexes scratch ((order.map UInt8.toNat).map fun o => responses.getD o d) result)
  | [], result, _ => rfl
  | o :: order, result, ho => by
    have ho' := ho o (by simp)
    unfold multLoop
    rw [ld_ok ho', C.ok_bind]
    have e : responses.getD o.toNat d = responses[o.toNat] := by simp [List.getD, ho']
    simp only [List.map_cons, multPure, e]
    split
    · rfl
    · exact multLoop_eq indexes responses scratch d order _ (fun o' h' => ho o' (by simp [h']))

/-- The contribution of one response: its Lagrange multiple, if the response is well formed and it does not vanish. -/
noncomputable def contrib (indexes : List UInt8) (r : Share) : Option G := by
  classical
  exact match dec (G := G) r.value with
    | none => none
    | some P => if lagrange indexes r.index • P = 0 then none else some (lagrange indexes r.index • P)

theorem multPure_ok (indexes : List UInt8) (scratch : B32) : ∀ (rs : List Share) (A : G),
    (∀ r ∈ rs, (contrib G indexes r).isSome) →
    multPure G indexes scratch rs (enc A) = (0, enc (A + (rs.map fun r => (contrib G indexes r).getD 0).sum))
  | [], A, _ => by simp [multPure]
  | r :: rs, A, h => by
    have hr := h r (by simp)
    have key : ∃ P : G, dec r.value = some P ∧ lagrange indexes r.index • P ≠ 0 ∧
        contrib G indexes r = some (lagrange indexes r.index • P) := by
      unfold contrib at hr ⊢
      cases hd : dec (G := G) r.value with
      | none => rw [hd] at hr; simp at hr
      | some P =>
        rw [hd] at hr
        by_cases h0 : lagrange indexes r.index • P = 0
        · simp [h0] at hr
        · exact ⟨P, rfl, h0, by simp [h0]⟩
    obtain ⟨P, hP, hne, hc⟩ := key
    have hP' : r.value = enc P := (enc_dec _ _ hP).symm
    have hm : scalarmult G scratch (coeff r.index indexes) r.value = (0, enc (lagrange indexes r.index • P)) := by
      rw [hP', coeff_eq, scalarmult_enc_ok _ _ (by rwa [maskedVal_ofZ]), maskedVal_ofZ]
    unfold multPure
    simp only [hm]
    rw [if_neg (by simp), pointAdd_enc]
    rw [multPure_ok indexes scratch rs _ (fun r' h' => h r' (by simp [h']))]
    simp [hc, add_assoc]

theorem multPure_fail (indexes : List UInt8) (scratch : B32) : ∀ (rs : List Share) (A : B32),
    (∃ r ∈ rs, (contrib G indexes r) = none) → (multPure G indexes scratch rs A).1 = 1
  | [], A, h => by simp at h
  | r :: rs, A, h => by
    unfold multPure
    by_cases hr : (scalarmult G scratch (coeff r.index indexes) r.value).1 ≠ 0
    · simp [hr]
    · simp only [hr, if_false]
      apply multPure_fail indexes scratch rs
      obtain ⟨r', hm, hc⟩ := h
      rw [List.mem_cons] at hm
      rcases hm with rfl | hm
      · exfalso
        apply hr
        unfold contrib at hc
        unfold scalarmult
        cases hd : dec (G := G) r'.value with
        | none => simp
        | some P =>
          rw [hd] at hc
          have h0 : lagrange indexes r'.index • P = 0 := by
            by_contra h0; simp [h0] at hc
          simp [coeff_eq, maskedVal_ofZ, h0, enc_zero]
      · exact ⟨r', hm, hc⟩

theorem contrib_perm {i i' : List UInt8} (h : i.Perm i') (r : Share) : contrib G i r = contrib G i' r := by
  unfold contrib; rw [lagrange_perm h]

/-- Complete description of `toprf_thresholdmult` for up to 255 responses. -/
theorem thresholdmult_eq (junk : UInt8) (scratch : B32) (rs : List Share) (h0 : rs.length ≠ 0) (h255 : rs.length ≤ 255) :
    (∀ r ∈ rs, (contrib G (rs.map (·.index)) r).isSome) ∧ thresholdmult G junk scratch rs =
        .ok (0, enc ((rs.map fun r => (contrib G (rs.map (·.index)) r).getD 0).sum)) ∨
    (∃ r ∈ rs, contrib G (rs.map (·.index)) r = none) ∧
      ∃ res, thresholdmult G junk scratch rs = .ok (1, res) := by
  obtain ⟨order, h1, h2⟩ := sortParts_spec rs h0
  have h3 := order_map h255 h2
  have hb : ∀ o ∈ order, o.toNat < rs.length := fun o ho => by
    have : o.toNat ∈ order.map UInt8.toNat := List.mem_map_of_mem ho
    simpa using h3.subset this
  have hd : Share := ⟨0, zero32⟩
  have e : thresholdmult G junk scratch rs = .ok (multPure G (rs.map (·.index)) scratch
      ((order.map UInt8.toNat).map fun o => rs.getD o hd) zero32) := by
    unfold thresholdmult
    rw [if_neg h0, if_neg (by omega), h1, C.ok_bind, fillIndexes_eq rs order _ (by simp) h3, C.ok_bind,
      multLoop_eq G _ _ _ hd order _ hb]
  have hp := order_perm h3 hd
  by_cases hall : ∀ r ∈ rs, (contrib G (rs.map (·.index)) r).isSome
  · left
    refine ⟨hall, ?_⟩
    rw [e, ← enc_zero (G := G), multPure_ok G _ _ _ _ (fun r hr => hall r (hp.subset hr)), zero_add]
    congr 3
    exact (hp.map _).sum_eq
  · right
    push Not at hall
    obtain ⟨r, hr, hn⟩ := hall
    have hn' : contrib G (rs.map (·.index)) r = none := by simpa using hn
    refine ⟨⟨r, hr, hn'⟩, ?_⟩
    have := multPure_fail G (rs.map (·.index)) scratch _ zero32 ⟨r, hp.mem_iff.2 hr, hn'⟩
    exact ⟨_, by rw [e]; exact congrArg C.ok (Prod.ext this rfl)⟩

/-! ### Combination -/

/-- The loop of `toprf_thresholdcombine` on the responses in processing order. -/
def combinePure : List Share → B32 → B32
  | [], result => result
  | r :: rs, result => combinePure rs (pointAdd G result result r.value).2

theorem combineLoop_eq (responses : List Share) (d : Share) :
    ∀ (order : List UInt8) (result : B32), (∀ o ∈ order, o.toNat < responses.length) →
      combineLoop G responses order result =
        .ok (combinePure G ((order.map UInt8.toNat).map fun o => responses.getD o d) result)
  | [], result, _ => rfl
  | o :: order, result, ho => by
    have ho' := ho o (by simp)
    unfold combineLoop
    rw [ld_ok ho', C.ok_bind]
    have e : responses.getD o.toNat d = responses[o.toNat] := by simp [List.getD, ho']
    simp only [List.map_cons, combinePure, e]
    exact combineLoop_eq responses d order _ (fun o' h' => ho o' (by simp [h']))

theorem combinePure_eq : ∀ (rs : List Share) (A : G),
    combinePure G rs (enc A) = enc (A + (rs.map fun r => (dec (G := G) r.value).getD 0).sum)
  | [], A => by simp [combinePure]
  | r :: rs, A => by
    unfold combinePure
    cases hd : dec (G := G) r.value with
    | none =>
      have : (pointAdd G (enc A) (enc A) r.value).2 = enc A := by simp [pointAdd, dec_enc, hd]
      rw [this, combinePure_eq rs A]
      simp [hd]
    | some P =>
      have : (pointAdd G (enc A) (enc A) r.value).2 = enc (A + P) := by simp [pointAdd, dec_enc, hd]
      rw [this, combinePure_eq rs (A + P)]
      simp [hd, add_assoc]

/-- Complete description of `toprf_thresholdcombine` for up to 255 responses: malformed elements count as identity. -/
theorem thresholdcombine_eq (rs : List Share) (r0 : B32) (h0 : rs.length ≠ 0) (h255 : rs.length ≤ 255) :
    thresholdcombine G rs r0 = .ok (0, enc ((rs.map fun r => (dec (G := G) r.value).getD 0).sum)) := by
  obtain ⟨order, h1, h2⟩ := sortParts_spec rs h0
  have h3 := order_map h255 h2
  have hb : ∀ o ∈ order, o.toNat < rs.length := fun o ho => by
    have : o.toNat ∈ order.map UInt8.toNat := List.mem_map_of_mem ho
    simpa using h3.subset this
  have hd : Share := ⟨0, zero32⟩
  have hp := order_perm h3 hd
  unfold thresholdcombine
  rw [if_neg (by omega), if_neg h0, h1, C.ok_bind, combineLoop_eq G rs hd order _ hb, C.ok_bind,
    ← enc_zero (G := G), combinePure_eq, zero_add]
  congr 3
  exact (hp.map _).sum_eq

end Verif.Toprf
