import Verif.Proofs.Toprf
import Verif.Props.Oprf

/-!
# Properties C09, C11–C21: the threshold OPRF (`/repo/src/toprf.c`)
-/

set_option linter.unusedSectionVars false

namespace Verif.Props

open Ristretto Spec Polynomial Verif.Toprf

variable (G : Type) [Ristretto G]

/-! ## C09 -/

theorem polyOf_coeff : ∀ (cs : List (ZMod L)) (j : ℕ), (polyOf cs).coeff j = cs.getD j 0
  | [], j => by simp [polyOf]
  | c :: cs, 0 => by simp [polyOf]
  | c :: cs, j + 1 => by
    have := polyOf_coeff cs j
    simp [polyOf, coeff_X_mul, this]

/-- The polynomial that `toprf_create_shares` deals. -/
noncomputable def dealPoly (s : ZMod L) (t : ℕ) (rnd : ℕ → B32) : (ZMod L)[X] :=
  polyOf (s :: ((List.range (t - 1)).map fun j => (rnd j).val))

theorem createShares_shares (secret : B32) (hs : secret.toNat + L ≤ 2 ^ 256) (n t : UInt8) (rnd : ℕ → B32)
    (out : List Share) (ht : 2 ≤ t.toNat) (hn : n.toNat ≤ 254) (ho : n.toNat ≤ out.length) :
    createShares secret n t rnd out = .ok ((List.range' 1 n.toNat).map (fun k =>
      (⟨UInt8.ofNat k, B32.ofZ ((dealPoly secret.val t.toNat rnd).eval (point (UInt8.ofNat k)))⟩ : Share)) ++
        out.drop n.toNat) := by
  rw [createShares_eq secret n t rnd out ht (by omega) ho]
  congr 2
  apply List.map_congr_left
  intro k _
  rw [ofByte_eq, shareLoop_eq' _ _ (by simp; omega) _ hs]
  simp [dealPoly, Function.comp_def]

/-- **C09.** Exactly the first `n` entries are written, with indexes `1..n`; they lie on one polynomial of degree
below the threshold with the secret at 0 (its other coefficients are the scalars drawn). -/
theorem C09_create_shares (secret : B32) (hs : secret.toNat + L ≤ 2 ^ 256) (n t : UInt8) (rnd : ℕ → B32)
    (out : List Share) (ht : 2 ≤ t.toNat) (hn : n.toNat ≤ 254) (ho : n.toNat ≤ out.length) :
    ∃ (f : (ZMod L)[X]) (shares : List Share),
      createShares secret n t rnd out = .ok (shares ++ out.drop n.toNat) ∧
      f.degree < t.toNat ∧ f.eval 0 = secret.val ∧ (∀ j, j + 1 < t.toNat → f.coeff (j + 1) = (rnd j).val) ∧
      shares.map (·.index.toNat) = List.range' 1 n.toNat ∧ ∀ s ∈ shares, OnPoly f s := by
  refine ⟨dealPoly secret.val t.toNat rnd, _, createShares_shares secret hs n t rnd out ht hn ho, ?_, ?_, ?_, ?_, ?_⟩
  · have := polyOf_degree (secret.val :: ((List.range (t.toNat - 1)).map fun j => (rnd j).val))
    have e : (secret.val :: ((List.range (t.toNat - 1)).map fun j => (rnd j).val)).length = t.toNat := by
      simp; omega
    rwa [e] at this
  · exact polyOf_eval_zero _ _
  · intro j hj
    rw [dealPoly, polyOf_coeff, List.getD_cons_succ]
    have : j < t.toNat - 1 := by omega
    simp [this]
  · rw [List.map_map]
    conv_rhs => rw [← List.map_id (List.range' 1 n.toNat)]
    apply List.map_congr_left
    intro k hk
    rw [List.mem_range'_1] at hk
    simp; omega
  · intro s hs
    rw [List.mem_map] at hs
    obtain ⟨k, _, rfl⟩ := hs
    exact ⟨B32.canonical_ofZ _, B32.val_ofZ _⟩

/-- A 3-of-5 sharing of 7 meets the hypotheses; so does every canonical secret. -/
example : (B32.ofZ ((7 : ℕ) : ZMod L)).toNat + L ≤ 2 ^ 256 ∧ 2 ≤ (3 : UInt8).toNat ∧ (5 : UInt8).toNat ≤ 254 ∧
    (5 : UInt8).toNat ≤ (List.replicate 5 (⟨0, zero32⟩ : Share)).length :=
  ⟨NoOverflow.of_canonical (B32.canonical_ofZ _), by decide, by decide, List.length_replicate.ge⟩

/-! ## C11 -/

/-- The share of receiver `i` in the outcome of `toprf_create_shares`. -/
def shareOf (r : C (List Share)) (i : UInt8) : Option Share :=
  match r with
  | .ok l => l[i.toNat - 1]?
  | .ub _ => none

theorem shareOf_createShares (secret : B32) (hs : secret.toNat + L ≤ 2 ^ 256) (n t : UInt8) (rnd : ℕ → B32)
    (out : List Share) (ht : 2 ≤ t.toNat) (hn : n.toNat ≤ 254) (ho : n.toNat ≤ out.length) (i : UInt8)
    (hi : 1 ≤ i.toNat ∧ i.toNat ≤ n.toNat) :
    shareOf (createShares secret n t rnd out) i =
      some ⟨i, B32.ofZ ((dealPoly secret.val t.toNat rnd).eval (point i))⟩ := by
  rw [createShares_shares secret hs n t rnd out ht hn ho]
  simp only [shareOf]
  have e1 : (1 + (i.toNat - 1)) = i.toNat := by omega
  rw [List.getElem?_append_left (by simp; omega), List.getElem?_map, List.getElem?_range' (by omega)]
  simp [e1]

theorem eq_polyOf (f : (ZMod L)[X]) (m : ℕ) (hf : f.degree < m) :
    f = polyOf ((List.range m).map fun j => f.coeff j) := by
  ext j
  rw [polyOf_coeff]
  by_cases hj : j < m
  · simp [hj]
  · rw [coeff_eq_zero_of_degree_lt (lt_of_lt_of_le hf (by exact_mod_cast not_lt.1 hj))]
    simp [hj]

/-- **C11, over all coefficient vectors.** What a coalition of `t - 1` receivers sees of the sharing of one secret it
sees of the sharing of any other secret, for exactly one vector of `t - 1` canonical coefficients. Missing for the
full claim: libsodium never draws the coefficient 0, so the distribution is not exactly uniform over these vectors
(next theorem). -/
theorem C11_secrecy_partial (s s' : B32) (hs : s.Canonical) (hs' : s'.Canonical) (n t : UInt8) (out : List Share)
    (ht : 2 ≤ t.toNat) (hn : n.toNat ≤ 254) (ho : n.toNat ≤ out.length) (S : Finset UInt8)
    (hS : ∀ i ∈ S, 1 ≤ i.toNat ∧ i.toNat ≤ n.toNat) (hcard : S.card = t.toNat - 1) (rnd : ℕ → B32) :
    ∃! a : List B32, (a.length = t.toNat - 1 ∧ ∀ c ∈ a, c.Canonical) ∧ ∀ i ∈ S,
      shareOf (createShares s' n t (fun j => a.getD j zero32) out) i =
        shareOf (createShares s n t rnd out) i := by
  classical
  have hso := NoOverflow.of_canonical hs
  have hso' := NoOverflow.of_canonical hs'
  set f := dealPoly s.val t.toNat rnd with hf
  have hp0 : point 0 = 0 := by simp [point]
  have h0 : (0 : UInt8) ∉ S := fun h => by have := hS 0 h; simp at this
  -- the polynomial through the shares of the coalition and the other secret
  set vals : UInt8 → ZMod L := fun i => if i = 0 then s'.val else f.eval (point i) with hvals
  set g := Lagrange.interpolate (insert 0 S) point vals with hg
  have hinj : Set.InjOn point (↑(insert 0 S) : Set UInt8) := fun a _ b _ h => point_inj h
  have hcard' : (insert 0 S).card = t.toNat := by rw [Finset.card_insert_of_notMem h0]; omega
  have hgdeg : g.degree < t.toNat := by rw [← hcard']; exact Lagrange.degree_interpolate_lt _ hinj
  have hg0 : g.eval 0 = s'.val := by
    have := Lagrange.eval_interpolate_at_node vals hinj (Finset.mem_insert_self 0 S)
    rw [hp0] at this
    rw [hg, this]; exact if_pos rfl
  have hgi : ∀ i ∈ S, g.eval (point i) = f.eval (point i) := fun i hi => by
    have := Lagrange.eval_interpolate_at_node vals hinj (Finset.mem_insert_of_mem hi)
    have hne : i ≠ 0 := fun h => h0 (h ▸ hi)
    rw [hg, this]; exact if_neg hne
  -- a candidate vector deals the same shares iff its polynomial is `g`
  have key : ∀ a : List B32, a.length = t.toNat - 1 →
      ((∀ i ∈ S, shareOf (createShares s' n t (fun j => a.getD j zero32) out) i =
        shareOf (createShares s n t rnd out) i) ↔ dealPoly s'.val t.toNat (fun j => a.getD j zero32) = g) := by
    intro a ha
    have hd : (dealPoly s'.val t.toNat (fun j => a.getD j zero32)).degree < t.toNat := by
      have := polyOf_degree (s'.val :: ((List.range (t.toNat - 1)).map fun j => (a.getD j zero32).val))
      have e : (s'.val :: ((List.range (t.toNat - 1)).map fun j => (a.getD j zero32).val)).length = t.toNat := by
        simp; omega
      rwa [e] at this
    have hev : (dealPoly s'.val t.toNat (fun j => a.getD j zero32)).eval 0 = s'.val := polyOf_eval_zero _ _
    constructor
    · intro h
      refine Polynomial.eq_of_degrees_lt_of_eval_index_eq (insert 0 S) hinj (by rwa [hcard']) (by rwa [hcard']) ?_
      intro i hi
      rw [Finset.mem_insert] at hi
      rcases hi with rfl | hi
      · rw [hp0, hev, hg0]
      · have := h i hi
        rw [shareOf_createShares s' hso' n t _ out ht hn ho i (hS i hi),
          shareOf_createShares s hso n t _ out ht hn ho i (hS i hi)] at this
        have := B32.ofZ_injective (Share.mk.inj (Option.some.inj this)).2
        rw [this, hgi i hi]
    · intro h i hi
      rw [shareOf_createShares s' hso' n t _ out ht hn ho i (hS i hi),
        shareOf_createShares s hso n t _ out ht hn ho i (hS i hi), h, hgi i hi]
  refine ⟨(List.range (t.toNat - 1)).map fun j => B32.ofZ (g.coeff (j + 1)), ⟨⟨by simp, ?_⟩, ?_⟩, ?_⟩
  · intro c hc
    rw [List.mem_map] at hc
    obtain ⟨j, _, rfl⟩ := hc
    exact B32.canonical_ofZ _
  · rw [key _ (by simp)]
    conv_rhs => rw [eq_polyOf g t.toNat hgdeg]
    have e : t.toNat = (t.toNat - 1) + 1 := by omega
    rw [dealPoly]
    conv_rhs => rw [e, List.range_succ_eq_map, List.map_cons, List.map_map, coeff_zero_eq_eval_zero, hg0]
    congr 2
    apply List.map_congr_left
    intro j hj
    rw [List.mem_range] at hj
    simp [hj]
  · rintro a ⟨⟨ha, hac⟩, h⟩
    rw [key a ha] at h
    apply List.ext_getElem (by simpa using ha)
    intro j h1 h2
    apply B32.canonical_ext (hac _ (List.getElem_mem h1)) (by simp [B32.canonical_ofZ])
    have hc : (dealPoly s'.val t.toNat (fun j => a.getD j zero32)).coeff (j + 1) = g.coeff (j + 1) := by rw [h]
    rw [dealPoly, polyOf_coeff, List.getD_cons_succ] at hc
    have hj : j < t.toNat - 1 := by omega
    simp only [List.getElem_map, List.getElem_range, B32.val_ofZ, ← hc]
    simp [hj, h1]

/-- **C11 is violated in the last bit.** With threshold 2 a share never equals the secret, since the coefficient is
never 0: the holder of one share can exclude one of the `L` secrets. -/
theorem C11_share_excludes_secret (s : B32) (hs : s.Canonical) (n t : UInt8) (out : List Share)
    (ht : t.toNat = 2) (hn : n.toNat ≤ 254) (ho : n.toNat ≤ out.length) (rnd : ℕ → B32) (hr : ∀ j, RandomScalar (rnd j))
    (i : UInt8) (hi : 1 ≤ i.toNat ∧ i.toNat ≤ n.toNat) (sh : Share)
    (h : shareOf (createShares s n t rnd out) i = some sh) : sh.value ≠ s := by
  rw [shareOf_createShares s (NoOverflow.of_canonical hs) n t rnd out (by omega) hn ho i hi] at h
  cases h
  intro hc
  have := congrArg B32.val hc
  rw [B32.val_ofZ, dealPoly, ht] at this
  simp only [polyOf_eval_cons, Nat.add_one_sub_one, List.range_one, List.map_cons, List.map_nil] at this
  have h2 : point i * (rnd 0).val = 0 := by simpa [polyOf] using this
  rcases mul_eq_zero.1 h2 with h | h
  · have : i = 0 := point_inj (by rw [h]; simp [point])
    rw [this] at hi; simp at hi
  · exact (hr 0).val_ne h

/-- The coalition of receivers 2 and 5 in a 3-of-5 sharing. -/
example : (∀ i ∈ ({2, 5} : Finset UInt8), 1 ≤ i.toNat ∧ i.toNat ≤ (5 : UInt8).toNat) ∧
    ({2, 5} : Finset UInt8).card = (3 : UInt8).toNat - 1 := by decide

/-! ## C12 -/

/-- **C12.** `coeff` returns the canonical encoding of the Lagrange coefficient (for every list, even one with
duplicates or without the index itself). -/
theorem C12_coeff (i : UInt8) (peers : List UInt8) :
    (Toprf.coeff i peers).Canonical ∧ (Toprf.coeff i peers).val = lagrange peers i := by
  rw [coeff_eq]; exact ⟨B32.canonical_ofZ _, B32.val_ofZ _⟩

/-- **C12.** Weighted with the coefficients the values of a polynomial sum to its value at 0. -/
theorem C12_coeff_interpolates (peers : List UInt8) (hn : peers.Nodup) (f : (ZMod L)[X])
    (hf : f.degree < peers.length) :
    (peers.map fun i => (Toprf.coeff i peers).val * f.eval (point i)).sum = f.eval 0 := by
  rw [← lagrange_sum peers hn f hf]
  congr 1
  apply List.map_congr_left
  intro i _
  rw [(C12_coeff i peers).2]

example : ([3, 1, 200] : List UInt8).Nodup ∧ (polyOf [7, 5, 3]).degree < ([3, 1, 200] : List UInt8).length :=
  ⟨by decide, polyOf_degree [7, 5, 3]⟩

/-! ## C13 -/

theorem nodup_length {l : List UInt8} (hn : l.Nodup) (h0 : 0 ∉ l) : l.length ≤ 255 := by
  have h : (0 :: l).Nodup := List.nodup_cons.2 ⟨h0, hn⟩
  have := (h.map (f := UInt8.toNat) (fun a b h => UInt8.toNat_inj.1 h)).length_le_of_subset (l₂ := List.range 256) (by
    intro x hx
    rw [List.mem_map] at hx
    obtain ⟨a, _, rfl⟩ := hx
    simpa using a.toNat_lt)
  simp at this
  omega

theorem sum_map_smul {α : Type} (l : List α) (c : α → ZMod L) (P : G) :
    (l.map fun a => c a • P).sum = (l.map c).sum • P := by
  induction l with
  | nil => simp
  | cons a l ih => simp [ih, add_smul]

/-- The core of the interpolation in the exponent: responses that are valid, not the identity and equal to `Q i` with
`Q` linear over a polynomial. -/
theorem thresholdmult_recovers (junk : UInt8) (scratch : B32) (rs : List Share) (f : (ZMod L)[X]) (P : G)
    (hne : rs ≠ []) (hn : (rs.map (·.index)).Nodup) (h0 : 0 ∉ rs.map (·.index)) (hf : f.degree < rs.length)
    (hr : ∀ r ∈ rs, r.value = enc (f.eval (point r.index) • P) ∧ f.eval (point r.index) • P ≠ 0) :
    thresholdmult G junk scratch rs = .ok (0, enc (f.eval 0 • P)) := by
  have hlen : rs.length ≤ 255 := by simpa using nodup_length hn h0
  have hc : ∀ r ∈ rs, contrib G (rs.map (·.index)) r =
      some ((lagrange (rs.map (·.index)) r.index * f.eval (point r.index)) • P) := by
    intro r hm
    obtain ⟨h1, h2⟩ := hr r hm
    have h3 : lagrange (rs.map (·.index)) r.index ≠ 0 :=
      lagrange_ne_zero _ _ (fun j hj _ hj0 => h0 (hj0 ▸ hj))
    unfold contrib
    rw [h1, dec_enc]
    simp only []
    rw [if_neg (smul_ne_zero h3 h2), mul_smul]
  rcases thresholdmult_eq G junk scratch rs (by simpa using hne) hlen with ⟨_, h⟩ | ⟨⟨r, hm, h⟩, _⟩
  · rw [h]
    congr 3
    have e : rs.map (fun r => (contrib G (rs.map (·.index)) r).getD 0) =
        (rs.map fun r => (lagrange (rs.map (·.index)) r.index * f.eval (point r.index)) • P) := by
      apply List.map_congr_left
      intro r hm
      rw [hc r hm]; rfl
    rw [e, sum_map_smul]
    congr 1
    have := lagrange_sum (rs.map (·.index)) hn f (by simpa using hf)
    rw [List.map_map] at this
    exact this
  · rw [hc r hm] at h; cases h

/-- **C13.** From at least threshold-many successful evaluations with shares of one sharing the library recovers the
evaluation with the shared key. -/
theorem C13_thresholdmult (junk : UInt8) (scratch Z0 : B32) (f : (ZMod L)[X]) (shares : List Share) (P : G)
    (hne : shares ≠ []) (hn : (shares.map (·.index)).Nodup) (h0 : 0 ∉ shares.map (·.index))
    (hf : f.degree < shares.length) (hs : ∀ s ∈ shares, OnPoly f s)
    (hev : ∀ s ∈ shares, (Oprf.evaluate G s.value (enc P) Z0).1 = 0) :
    thresholdmult G junk scratch
      (shares.map fun s => ⟨s.index, (Oprf.evaluate G s.value (enc P) Z0).2⟩) = .ok (0, enc (f.eval 0 • P)) := by
  apply thresholdmult_recovers G junk scratch _ f P
  · simpa using hne
  · simpa [List.map_map, Function.comp_def] using hn
  · simpa [List.map_map, Function.comp_def] using h0
  · simpa using hf
  · intro r hr
    rw [List.mem_map] at hr
    obtain ⟨s, hm, rfl⟩ := hr
    obtain ⟨hcan, hval⟩ := hs s hm
    have h := hev s hm
    rw [C05_evaluate_iff] at h
    obtain ⟨⟨P', hP', hP0⟩, hk⟩ := h
    rw [dec_enc] at hP'
    cases hP'
    rw [maskedVal_canonical hcan, hval] at hk
    refine ⟨?_, smul_ne_zero hk hP0⟩
    simp only [Oprf.evaluate, scalarmult_enc, maskedVal_canonical hcan, hval]

section
attribute [local instance] Ristretto.toy

/-- Shares 1 and 3 of the sharing of 7 by `7 + 5x`. -/
def toyShares : List Share := [⟨3, B32.ofZ ((22 : ℕ) : ZMod L)⟩, ⟨1, B32.ofZ ((12 : ℕ) : ZMod L)⟩]

theorem toyShares_onPoly : ∀ s ∈ toyShares, OnPoly (polyOf [((7 : ℕ) : ZMod L), ((5 : ℕ) : ZMod L)]) s := by
  intro s hs
  simp only [toyShares, List.mem_cons, List.not_mem_nil, or_false] at hs
  rcases hs with rfl | rfl <;>
  · refine ⟨B32.canonical_ofZ _, ?_⟩
    rw [B32.val_ofZ]
    rw [polyOf_eval_cons, polyOf_eval_cons]
    have e : UInt8.toNat 3 = 3 := rfl
    have e' : UInt8.toNat 1 = 1 := rfl
    simp only [polyOf, eval_zero, point, e, e']
    norm_num

theorem toyShares_evaluate : ∀ s ∈ toyShares, (Oprf.evaluate (ZMod L) s.value (enc (1 : ZMod L)) zero32).1 = 0 := by
  intro s hs
  simp only [toyShares, List.mem_cons, List.not_mem_nil, or_false] at hs
  rw [C05_evaluate_iff]
  refine ⟨⟨1, dec_enc _, one_ne_zero⟩, ?_⟩
  rcases hs with rfl | rfl
  · rw [maskedVal_ofZ]; exact Toy.natCast_ne_zero (by norm_num) (by norm_num)
  · rw [maskedVal_ofZ]; exact Toy.natCast_ne_zero (by norm_num) (by norm_num)

example : toyShares ≠ [] ∧ (toyShares.map (·.index)).Nodup ∧ 0 ∉ toyShares.map (·.index) ∧
    (polyOf [((7 : ℕ) : ZMod L), ((5 : ℕ) : ZMod L)]).degree < toyShares.length ∧
    (∀ s ∈ toyShares, OnPoly (polyOf [((7 : ℕ) : ZMod L), ((5 : ℕ) : ZMod L)]) s) ∧
    ∀ s ∈ toyShares, (Oprf.evaluate (ZMod L) s.value (enc (1 : ZMod L)) zero32).1 = 0 :=
  ⟨by simp [toyShares], by simp [toyShares], by simp [toyShares], polyOf_degree _, toyShares_onPoly,
    toyShares_evaluate⟩
end

/-! ## C14 -/

/-- **C14.** Permuting arbitrary responses changes neither the return value nor, on success, the result; the
indeterminate contents of local variables do not matter either. -/
theorem C14_thresholdmult_order (junk junk' : UInt8) (scratch scratch' : B32) (rs rs' : List Share) (h : rs.Perm rs')
    (hne : rs ≠ []) :
    ∃ ret res res', thresholdmult G junk scratch rs = .ok (ret, res) ∧
      thresholdmult G junk' scratch' rs' = .ok (ret, res') ∧ (ret = 0 → res = res') := by
  have hl := h.length_eq
  have h0 : rs.length ≠ 0 := by simpa using hne
  by_cases h255 : rs.length ≤ 255
  · have hidx : (rs.map (·.index)).Perm (rs'.map (·.index)) := h.map _
    rcases thresholdmult_eq G junk scratch rs h0 h255 with ⟨ha, e⟩ | ⟨⟨r, hm, hr⟩, res, e⟩ <;>
      rcases thresholdmult_eq G junk' scratch' rs' (by omega) (by omega) with ⟨ha', e'⟩ | ⟨⟨r', hm', hr'⟩, res', e'⟩
    · refine ⟨0, _, _, e, e', fun _ => ?_⟩
      congr 1
      have : (rs'.map fun r => (contrib G (rs'.map (·.index)) r).getD 0) =
          rs'.map fun r => (contrib G (rs.map (·.index)) r).getD 0 := by
        apply List.map_congr_left; intro r _; rw [contrib_perm G hidx]
      rw [this]
      exact (h.map _).sum_eq
    · have := ha r' (h.mem_iff.2 hm')
      rw [contrib_perm G hidx, hr'] at this; cases this
    · have := ha' r (h.mem_iff.1 hm)
      rw [← contrib_perm G hidx, hr] at this; cases this
    · exact ⟨1, _, _, e, e', by intro h; cases h⟩
  · refine ⟨1, zero32, zero32, ?_, ?_, fun _ => rfl⟩
    · unfold thresholdmult; rw [if_neg h0, if_pos (by omega)]
    · unfold thresholdmult; rw [if_neg (by omega), if_pos (by omega)]

example : toyShares.Perm toyShares.reverse ∧ toyShares ≠ [] ∧ toyShares ≠ toyShares.reverse :=
  ⟨(List.reverse_perm _).symm, by simp [toyShares], by simp [toyShares]⟩

/-! ## C15 -/

/-- **C15.** A response that is no valid encoding or is the identity makes the function report failure. -/
theorem C15_thresholdmult_rejects (junk : UInt8) (scratch : B32) (rs : List Share) (r : Share) (hr : r ∈ rs)
    (hbad : dec (G := G) r.value = none ∨ dec (G := G) r.value = some 0) :
    ∃ res, thresholdmult G junk scratch rs = .ok (1, res) := by
  have h0 : rs.length ≠ 0 := by intro h; rw [List.length_eq_zero_iff] at h; simp [h] at hr
  by_cases h255 : rs.length ≤ 255
  · rcases thresholdmult_eq G junk scratch rs h0 h255 with ⟨ha, _⟩ | ⟨_, h⟩
    · have := ha r hr
      unfold contrib at this
      rcases hbad with h | h <;> simp [h] at this
    · exact h
  · exact ⟨zero32, by unfold thresholdmult; rw [if_neg h0, if_pos (by omega)]⟩

/-- **C15.** More than 255 responses are refused. -/
theorem C15_thresholdmult_too_many (junk : UInt8) (scratch : B32) (rs : List Share) (h : 255 < rs.length) :
    thresholdmult G junk scratch rs = .ok (1, zero32) := by
  unfold thresholdmult; rw [if_neg (by omega), if_pos h]

/-- **C15, exactness.** With distinct non-zero indexes the function succeeds exactly if every response is a valid
encoding of an element other than the identity. -/
theorem C15_thresholdmult_iff (junk : UInt8) (scratch : B32) (rs : List Share) (hne : rs ≠ [])
    (hn : (rs.map (·.index)).Nodup) (h0 : 0 ∉ rs.map (·.index)) :
    (∃ res, thresholdmult G junk scratch rs = .ok (0, res)) ↔
      ∀ r ∈ rs, ∃ P : G, dec r.value = some P ∧ P ≠ 0 := by
  constructor
  · rintro ⟨res, h⟩ r hr
    by_contra hbad
    have : dec (G := G) r.value = none ∨ dec (G := G) r.value = some 0 := by
      cases hd : dec (G := G) r.value with
      | none => exact Or.inl rfl
      | some P =>
        right
        by_contra hP
        exact hbad ⟨P, hd, fun h => hP (by rw [h])⟩
    obtain ⟨res', h'⟩ := C15_thresholdmult_rejects G junk scratch rs r hr this
    rw [h] at h'
    simp at h'
  · intro hall
    have hlen : rs.length ≤ 255 := by simpa using nodup_length hn h0
    rcases thresholdmult_eq G junk scratch rs (by simpa using hne) hlen with ⟨_, h⟩ | ⟨⟨r, hm, h⟩, _⟩
    · exact ⟨_, h⟩
    · obtain ⟨P, hP, hP0⟩ := hall r hm
      have h3 : lagrange (rs.map (·.index)) r.index ≠ 0 :=
        lagrange_ne_zero _ _ (fun j hj _ hj0 => h0 (hj0 ▸ hj))
      unfold contrib at h
      rw [hP] at h
      simp [smul_ne_zero h3 hP0] at h

/-- Not every 32-byte string is a valid encoding, in any group of this order. -/
theorem exists_invalid : ∃ b : B32, dec (G := G) b = none := by
  by_contra hcon
  push Not at hcon
  have hall : ∀ b : B32, ∃ k : ZMod L, dec (G := G) b = some (k • (base : G)) := by
    intro b
    cases hd : dec (G := G) b with
    | none => exact absurd hd (hcon b)
    | some P =>
      obtain ⟨k, hk⟩ := exists_smul_base P
      exact ⟨k, by rw [hk]⟩
  choose k hk using hall
  have hinj : Function.Injective fun i : Fin (2 ^ 256) => k (B32.ofNat i.1) := by
    intro i j hij
    have h1 := hk (B32.ofNat i.1)
    have h2 := hk (B32.ofNat j.1)
    simp only at hij
    rw [hij] at h1
    have h3 : B32.ofNat i.1 = B32.ofNat j.1 := (enc_dec _ _ h1).symm.trans (enc_dec _ _ h2)
    have h4 := congrArg B32.toNat h3
    rw [B32.toNat_ofNat_of_lt i.2, B32.toNat_ofNat_of_lt j.2] at h4
    exact Fin.ext h4
  have := Fintype.card_le_of_injective _ hinj
  rw [Fintype.card_fin, ZMod.card] at this
  exact absurd L_lt_256 (not_lt.2 this)

/-- A malformed response exists for every group. -/
example : ∃ (rs : List Share) (r : Share), r ∈ rs ∧ dec (G := G) r.value = none := by
  obtain ⟨b, hb⟩ := exists_invalid G
  exact ⟨[⟨1, zero32⟩, ⟨2, b⟩], ⟨2, b⟩, by simp, hb⟩

/-! ## C16 -/

/-- **C16.** Shareholders who evaluate with the same list of indexes: the combined responses are the evaluation with
the shared key, whatever the index bytes `tag` of the parts are. -/
theorem C16_evaluate_combine (f : (ZMod L)[X]) (shares : List Share) (P : G) (Z0 : Share → Share) (r0 : B32)
    (hne : shares ≠ []) (hn : (shares.map (·.index)).Nodup) (h0 : 0 ∉ shares.map (·.index))
    (hf : f.degree < shares.length) (hs : ∀ s ∈ shares, OnPoly f s) (peers : List UInt8)
    (hp : peers.Perm (shares.map (·.index))) (tag : Share → UInt8) :
    thresholdcombine G
      (shares.map fun s => ⟨tag s, (Toprf.evaluate G s (enc P) s.index peers (Z0 s)).2.value⟩) r0 =
        .ok (0, enc (f.eval 0 • P)) := by
  have hlen : shares.length ≤ 255 := by simpa using nodup_length hn h0
  rw [thresholdcombine_eq G _ _ (by simpa using hne) (by simpa using hlen)]
  congr 3
  rw [List.map_map]
  have e : shares.map ((fun r : Share => (dec (G := G) r.value).getD 0) ∘
      fun s => ⟨tag s, (Toprf.evaluate G s (enc P) s.index peers (Z0 s)).2.value⟩) =
      shares.map fun s => (lagrange (shares.map (·.index)) s.index * f.eval (point s.index)) • P := by
    apply List.map_congr_left
    intro s hm
    simp only [Function.comp, Toprf.evaluate, Oprf.evaluate, scalarmult_enc, dec_enc, Option.getD_some, scalarMul_eq,
      maskedVal_ofZ, coeff_eq, B32.val_ofZ, (hs s hm).2, lagrange_perm hp]
    rw [mul_comm]
  rw [e, sum_map_smul]
  congr 1
  have := lagrange_sum (shares.map (·.index)) hn f (by simpa using hf)
  rw [List.map_map] at this
  exact this

/-- **C16.** The response in full: share times Lagrange coefficient of the argument `self` (the index byte inside the
share is not consulted) and an untouched index byte. -/
theorem C16_evaluate_output (k : Share) (P : G) (self : UInt8) (peers : List UInt8) (Z0 : Share) :
    (Toprf.evaluate G k (enc P) self peers Z0).2 = ⟨Z0.index, enc ((k.value.val * lagrange peers self) • P)⟩ := by
  simp only [Toprf.evaluate, Oprf.evaluate, scalarmult_enc, scalarMul_eq, maskedVal_ofZ, coeff_eq, B32.val_ofZ]

/-- **C16.** `toprf_Evaluate` succeeds for every shareholder with a non-zero share and every non-identity element. -/
theorem C16_evaluate_succeeds (s : Share) (P : G) (Z0 : Share) (peers : List UInt8) (h0 : 0 ∉ peers) :
    (Toprf.evaluate G s (enc P) s.index peers Z0).1 = 0 ↔ s.value.val ≠ 0 ∧ P ≠ 0 := by
  have h3 : lagrange peers s.index ≠ 0 := lagrange_ne_zero _ _ (fun j hj _ hj0 => h0 (hj0 ▸ hj))
  have e : (Toprf.evaluate G s (enc P) s.index peers Z0).1 =
      if (Oprf.evaluate G (scalarMul s.value (Toprf.coeff s.index peers)) (enc P) Z0.value).1 ≠ 0 then 1 else 0 := rfl
  rw [e]
  have h := C05_evaluate_iff G (scalarMul s.value (Toprf.coeff s.index peers)) (enc P) Z0.value
  rw [scalarMul_eq, maskedVal_ofZ, coeff_eq, B32.val_ofZ, dec_enc] at h
  rw [scalarMul_eq, coeff_eq, B32.val_ofZ]
  constructor
  · intro h1
    have h2 : ¬ (Oprf.evaluate G (B32.ofZ (s.value.val * lagrange peers s.index)) (enc P) Z0.value).1 ≠ 0 := by
      intro hc; rw [if_pos hc] at h1; simp at h1
    rw [not_not, h] at h2
    obtain ⟨⟨P', hP', hP0⟩, hk⟩ := h2
    cases hP'
    exact ⟨left_ne_zero_of_mul hk, hP0⟩
  · rintro ⟨h1, h2⟩
    rw [if_neg]
    rw [not_not, h]
    exact ⟨⟨P, rfl, h2⟩, mul_ne_zero h1 h3⟩

section
attribute [local instance] Ristretto.toy
example : ∀ s ∈ toyShares, (Toprf.evaluate (ZMod L) s (enc (1 : ZMod L)) s.index [1, 3] ⟨9, zero32⟩).1 = 0 := by
  intro s hs
  rw [C16_evaluate_succeeds (ZMod L) s 1 _ [1, 3] (by decide)]
  refine ⟨?_, one_ne_zero⟩
  simp only [toyShares, List.mem_cons, List.not_mem_nil, or_false] at hs
  rcases hs with rfl | rfl
  · rw [B32.val_ofZ]; exact Toy.natCast_ne_zero (by norm_num) (by norm_num)
  · rw [B32.val_ofZ]; exact Toy.natCast_ne_zero (by norm_num) (by norm_num)

example : ([1, 3] : List UInt8).Perm (toyShares.map (·.index)) := by
  simp only [toyShares, List.map_cons, List.map_nil]
  exact List.Perm.swap 3 1 []
end

/-! ## C17 -/

/-- **C17.** The outcome only depends on the multiset of the response elements: neither order nor index bytes matter. -/
theorem C17_combine_order (rs rs' : List Share) (r0 : B32) (h : (rs.map (·.value)).Perm (rs'.map (·.value))) :
    thresholdcombine G rs r0 = thresholdcombine G rs' r0 := by
  have hl : rs.length = rs'.length := by simpa using h.length_eq
  by_cases h0 : rs.length = 0
  · rw [List.length_eq_zero_iff] at h0
    have : rs' = [] := by rw [← List.length_eq_zero_iff, ← hl, h0]; rfl
    rw [h0, this]
  · by_cases h255 : rs.length ≤ 255
    · rw [thresholdcombine_eq G rs r0 h0 h255, thresholdcombine_eq G rs' r0 (by omega) (by omega)]
      congr 3
      have := (h.map fun v => (dec (G := G) v).getD 0).sum_eq
      rw [List.map_map, List.map_map] at this
      exact this
    · unfold thresholdcombine
      rw [if_pos (by omega), if_pos (by omega)]

/-- **C17.** For valid responses the result is the sum of the elements. -/
theorem C17_combine_sum (tags : List UInt8) (Ps : List G) (r0 : B32) (hl : tags.length = Ps.length) (h0 : Ps ≠ [])
    (h255 : Ps.length ≤ 255) :
    thresholdcombine G (List.zipWith (fun t P => ⟨t, enc P⟩) tags Ps) r0 = .ok (0, enc Ps.sum) := by
  have hlen : (List.zipWith (fun t (P : G) => (⟨t, enc P⟩ : Share)) tags Ps).length = Ps.length := by simp [hl]
  rw [thresholdcombine_eq G _ r0 (by rw [hlen]; simpa using h0) (by omega)]
  congr 4
  rw [List.map_zipWith]
  simp only [dec_enc, Option.getD_some]
  apply List.ext_getElem
  · simp [hl]
  · intro i h1 h2; simp

example : ([⟨1, zero32⟩, ⟨2, B32.ofZ 1⟩] : List Share).map (·.value) = [zero32, B32.ofZ 1] ∧
    ([⟨9, B32.ofZ 1⟩, ⟨9, zero32⟩] : List Share).map (·.value) = [B32.ofZ 1, zero32] ∧
    [zero32, B32.ofZ 1].Perm [B32.ofZ 1, zero32] := ⟨rfl, rfl, List.Perm.swap _ _ _⟩

/-! ## C18 -/

/-- **C18, as far as it holds.** Only the number of responses is checked. Missing: malformed responses are not
reported (next theorem). -/
theorem C18_combine_rejects_partial (rs : List Share) (r0 : B32) (h : 255 < rs.length) :
    thresholdcombine G rs r0 = .ok (1, r0) := by
  unfold thresholdcombine; rw [if_pos h]

/-- **C18 is violated.** A malformed response is reported as success and counts as nothing: the result is the one of
the list without it. -/
theorem C18_combine_ignores_malformed (rs rs' : List Share) (r : Share) (r0 : B32) (hr : dec (G := G) r.value = none)
    (hne : rs ++ rs' ≠ []) (h255 : (rs ++ r :: rs').length ≤ 255) :
    ∃ res, thresholdcombine G (rs ++ r :: rs') r0 = .ok (0, res) ∧ thresholdcombine G (rs ++ rs') r0 = .ok (0, res) := by
  refine ⟨_, thresholdcombine_eq G _ r0 (by simp) h255, ?_⟩
  rw [thresholdcombine_eq G _ r0 (by simpa using hne) (by simp at h255 ⊢; omega)]
  simp [hr]

/-- Such responses exist for every group. -/
example : ∃ r : Share, dec (G := G) r.value = none := by
  obtain ⟨b, hb⟩ := exists_invalid G
  exact ⟨⟨1, b⟩, hb⟩

/-! ## C21 -/

/-- **C21, as far as it holds.** Up to 254 shares and thresholds from 2 on: only the caller's buffer is accessed.
Missing: 255 shares and thresholds below 2, see the next two theorems. -/
theorem C21_create_shares_safe_partial (secret : B32) (n t : UInt8) (rnd : ℕ → B32) (out : List Share)
    (ht : 2 ≤ t.toNat) (hn : n.toNat ≤ 254) (ho : out.length = n.toNat) :
    (createShares secret n t rnd out).Safe := by
  rw [createShares_eq secret n t rnd out ht (by omega) (by omega)]
  exact ⟨_, rfl⟩

theorem forLeU8_255 {σ : Type} (body : UInt8 → σ → C σ) : ∀ (fuel : ℕ) (i : UInt8) (s : σ),
    ¬ (forLeU8 body 255 fuel i s).Safe
  | 0, _, _ => C.not_safe_ub _
  | fuel + 1, i, s => by
    unfold forLeU8
    have h : i ≤ 255 := by
      have := i.toNat_lt
      show i.toNat ≤ 255
      omega
    rw [if_pos h]
    cases body i s with
    | ub u => exact C.not_safe_ub _
    | ok a => exact forLeU8_255 body fuel (i + 1) a

/-- **C21 is violated.** With 255 shares the 8-bit counter wraps around and the loop never ends properly (it writes in
front of the buffer). -/
theorem C21_create_shares_255 (secret : B32) (t : UInt8) (rnd : ℕ → B32) (out : List Share) :
    ¬ (createShares secret 255 t rnd out).Safe := by
  unfold createShares
  split
  · exact C.not_safe_ub _
  · exact forLeU8_255 _ _ _ _

/-- **C21 is violated.** Thresholds 0 and 1 declare an array of non-positive size. -/
theorem C21_create_shares_threshold (secret : B32) (n t : UInt8) (rnd : ℕ → B32) (out : List Share)
    (ht : t.toNat ≤ 1) : createShares secret n t rnd out = .ub .vla := by
  unfold createShares; rw [if_pos ht]

/-- **C21.** `toprf_thresholdmult` and `toprf_thresholdcombine` are safe for every positive number of arbitrary
responses, and (**violation**) have undefined behaviour exactly for an empty list. -/
theorem C21_combine_safe_iff (junk : UInt8) (scratch r0 : B32) (rs : List Share) :
    ((thresholdmult G junk scratch rs).Safe ↔ rs ≠ []) ∧ ((thresholdcombine G rs r0).Safe ↔ rs ≠ []) := by
  constructor
  · constructor
    · rintro ⟨a, h⟩ rfl
      simp [thresholdmult] at h
    · intro hne
      by_cases h255 : rs.length ≤ 255
      · rcases thresholdmult_eq G junk scratch rs (by simpa using hne) h255 with ⟨_, h⟩ | ⟨_, _, h⟩
        · exact ⟨_, h⟩
        · exact ⟨_, h⟩
      · exact ⟨_, C15_thresholdmult_too_many G junk scratch rs (by omega)⟩
  · constructor
    · rintro ⟨a, h⟩ rfl
      simp [thresholdcombine] at h
    · intro hne
      by_cases h255 : rs.length ≤ 255
      · exact ⟨_, thresholdcombine_eq G rs r0 (by simpa using hne) h255⟩
      · exact ⟨_, C18_combine_rejects_partial G rs r0 (by omega)⟩

example : 2 ≤ (3 : UInt8).toNat ∧ (254 : UInt8).toNat ≤ 254 ∧
    (List.replicate 254 (⟨0, zero32⟩ : Share)).length = (254 : UInt8).toNat :=
  ⟨by decide, by decide, List.length_replicate⟩

/-! ## C19 -/

variable [Hashes]

/-- The element the session id and the blinded element are hashed to by `toprf_3hashtdh`. -/
def tdhPoint (alpha : B32) (ssid : Bytes) : G :=
  Spec.hashToGroup G Oprf.sha (Hashes.generichash64 (Spec.i2osp ssid.length 2 ++ ssid ++ alpha.toList)).toList

theorem hash3tdh_cases (s1 s2 : B32) (k z : Share) (A : G) (ssid : Bytes) (hl : ssid.length ≤ 65535)
    (beta0 : Share) :
    (maskedVal k.value • A ≠ 0 ∧ maskedVal z.value • tdhPoint G (enc A) ssid ≠ 0 ∧
      hash3tdh G true s1 s2 k z (enc A) ssid (UInt16.ofNat ssid.length) beta0 =
        .ok (0, ⟨k.index, enc (maskedVal k.value • A + maskedVal z.value • tdhPoint G (enc A) ssid)⟩)) ∨
    (¬ (maskedVal k.value • A ≠ 0 ∧ maskedVal z.value • tdhPoint G (enc A) ssid ≠ 0) ∧
      ∃ b, hash3tdh G true s1 s2 k z (enc A) ssid (UInt16.ofNat ssid.length) beta0 = .ok (1, b)) := by
  have hxl : (UInt16.ofNat ssid.length).toNat = ssid.length := by simp; omega
  have e : Spec.hashToGroup G Oprf.sha (((Hashes.generichash64
      (beBytes 2 ssid.length ++ ssid ++ (enc A).toList)).toList).take (UInt8.toNat 64)) = tdhPoint G (enc A) ssid := by
    unfold tdhPoint
    rw [Oprf.i2osp_two]
    congr 1
    exact List.take_of_length_le (by simp)
  by_cases hk : maskedVal k.value • A = 0
  · right
    refine ⟨fun h => h.1 hk, ⟨k.index, enc (0 : G)⟩, ?_⟩
    unfold hash3tdh
    simp [Oprf.evaluate, scalarmult_enc, hk, enc_zero]
  · have e1 : Oprf.evaluate G k.value (enc A) beta0.value = (0, enc (maskedVal k.value • A)) :=
      scalarmult_enc_ok _ _ hk
    have e2 : hash3tdh G true s1 s2 k z (enc A) ssid (UInt16.ofNat ssid.length) beta0 =
        (let (ret, h2) := Oprf.evaluate G z.value (enc (tdhPoint G (enc A) ssid)) s2
        if ret ≠ 0 then .ok (1, ⟨k.index, enc (maskedVal k.value • A)⟩)
        else .ok (0, ⟨k.index, (pointAdd G (enc (maskedVal k.value • A)) (enc (maskedVal k.value • A)) h2).2⟩)) := by
      unfold hash3tdh
      simp only [e1, ne_eq, not_true_eq_false, if_false]
      rw [hxl, rd_ok (by omega), C.ok_bind, List.drop_zero, List.take_length,
        Oprf.hashToGroup_ok G _ _ (by simp), C.ok_bind, e]
      simp only [not_true_eq_false, if_false]
    by_cases hz : maskedVal z.value • tdhPoint G (enc A) ssid = 0
    · right
      refine ⟨fun h => h.2 hz, ⟨k.index, enc (maskedVal k.value • A)⟩, ?_⟩
      rw [e2]
      simp [Oprf.evaluate, scalarmult_enc, hz, enc_zero]
    · left
      refine ⟨hk, hz, ?_⟩
      have e3 : Oprf.evaluate G z.value (enc (tdhPoint G (enc A) ssid)) s2 =
          (0, enc (maskedVal z.value • tdhPoint G (enc A) ssid)) := scalarmult_enc_ok _ _ hz
      rw [e2]
      simp [e3, pointAdd_enc]

/-- What a successful `toprf_3hashtdh` computes. -/
theorem hash3tdh_ok (s1 s2 : B32) (k z : Share) (A : G) (ssid : Bytes) (hl : ssid.length ≤ 65535) (beta0 beta : Share)
    (h : hash3tdh G true s1 s2 k z (enc A) ssid (UInt16.ofNat ssid.length) beta0 = .ok (0, beta)) :
    beta = ⟨k.index, enc (maskedVal k.value • A + maskedVal z.value • tdhPoint G (enc A) ssid)⟩ := by
  rcases hash3tdh_cases G s1 s2 k z A ssid hl beta0 with ⟨_, _, h'⟩ | ⟨_, b, h'⟩
  · rw [h'] at h; simpa using h.symm
  · rw [h'] at h; simp at h

/-- **C19.** When every server `(k, z)` of a set that is large enough answers with `toprf_3hashtdh` for the same
session id, and no answer is the identity, the combination is the evaluation with the shared key. -/
theorem C19_3hashtdh (junk : UInt8) (scratch : B32) (f g : (ZMod L)[X]) (servers : List (Share × Share))
    (betas : List Share) (A : G) (ssid : Bytes) (hl : ssid.length ≤ 65535)
    (hne : servers ≠ []) (hn : (servers.map (·.1.index)).Nodup) (h0 : 0 ∉ servers.map (·.1.index))
    (hf : f.degree < servers.length) (hg : g.degree < servers.length) (hg0 : g.eval 0 = 0)
    (hs : ∀ s ∈ servers, OnPoly f s.1 ∧ OnPoly g s.2 ∧ s.2.index = s.1.index)
    (hb : List.Forall₂ (fun s b => ∃ s1 s2 b0, hash3tdh G true s1 s2 s.1 s.2 (enc A) ssid
      (UInt16.ofNat ssid.length) b0 = .ok (0, b)) servers betas)
    (hid : ∀ b ∈ betas, b.value ≠ zero32) :
    thresholdmult G junk scratch betas = .ok (0, enc (f.eval 0 • A)) := by
  have hbetas : betas = servers.map fun s =>
      (⟨s.1.index, enc (f.eval (point s.1.index) • A + g.eval (point s.1.index) • tdhPoint G (enc A) ssid)⟩ : Share) := by
    clear hf hg hn h0 hne hid
    induction hb with
    | nil => rfl
    | cons h _ ih =>
      obtain ⟨s1, s2, b0, h⟩ := h
      have hx := hs _ (List.mem_cons_self)
      rw [List.map_cons, ← ih (fun s hm => hs s (List.mem_cons_of_mem _ hm)),
        hash3tdh_ok G s1 s2 _ _ A ssid hl b0 _ h, maskedVal_canonical hx.1.1, maskedVal_canonical hx.2.1.1, hx.1.2,
        hx.2.1.2, hx.2.2]
  -- both terms as multiples of the base point
  obtain ⟨a, ha⟩ := exists_smul_base A
  obtain ⟨c, hc⟩ := exists_smul_base (tdhPoint G (enc A) ssid)
  have hh : ∀ x : ZMod L, f.eval x • A + g.eval x • tdhPoint G (enc A) ssid =
      (Polynomial.C a * f + Polynomial.C c * g).eval x • (base : G) := by
    intro x
    rw [hc, smul_smul, ha, smul_smul, ← add_smul]
    congr 1
    simp only [eval_add, eval_mul, eval_C]
    ring
  have hdeg : (Polynomial.C a * f + Polynomial.C c * g).degree < servers.length := by
    refine lt_of_le_of_lt (degree_add_le _ _) (max_lt ?_ ?_)
    · rw [← smul_eq_C_mul]; exact lt_of_le_of_lt (degree_smul_le a f) hf
    · rw [← smul_eq_C_mul]; exact lt_of_le_of_lt (degree_smul_le c g) hg
  have := thresholdmult_recovers G junk scratch betas (Polynomial.C a * f + Polynomial.C c * g) base
    (by rw [hbetas]; simpa using hne) (by rw [hbetas]; simpa [Function.comp_def] using hn)
    (by rw [hbetas]; simpa [Function.comp_def] using h0) (by rw [hbetas]; simpa using hdeg) (by
      intro b hm
      have hv := hid b hm
      rw [hbetas, List.mem_map] at hm
      obtain ⟨s, _, rfl⟩ := hm
      simp only at hv ⊢
      rw [hh] at hv ⊢
      exact ⟨rfl, by rwa [Ne, enc_eq_zero] at hv⟩)
  rw [this, ← hh, hg0, zero_smul, add_zero]

/-- **C19.** `toprf_3hashtdh` succeeds exactly if neither of the two products is the identity. -/
theorem C19_3hashtdh_iff (s1 s2 : B32) (k z : Share) (A : G) (ssid : Bytes) (hl : ssid.length ≤ 65535) (beta0 : Share) :
    (∃ beta, hash3tdh G true s1 s2 k z (enc A) ssid (UInt16.ofNat ssid.length) beta0 = .ok (0, beta)) ↔
      maskedVal k.value • A ≠ 0 ∧ maskedVal z.value • tdhPoint G (enc A) ssid ≠ 0 := by
  rcases hash3tdh_cases G s1 s2 k z A ssid hl beta0 with ⟨h1, h2, h'⟩ | ⟨hn, b, h'⟩
  · exact ⟨fun _ => ⟨h1, h2⟩, fun _ => ⟨_, h'⟩⟩
  · refine ⟨?_, fun h => absurd h hn⟩
    rintro ⟨beta, h⟩
    rw [h'] at h; simp at h

theorem tdh_witness (k z : ℕ) (i : UInt8) (ssid : Bytes) (hl : ssid.length ≤ 65535)
    (hT : tdhPoint G (enc (base : G)) ssid = base) (hk : k ≠ 0) (hk' : k < 2 ^ 250) (hz : z ≠ 0) (hz' : z < 2 ^ 250) :
    ∃ b, hash3tdh G true zero32 zero32 ⟨i, B32.ofZ (k : ZMod L)⟩ ⟨i, B32.ofZ (z : ZMod L)⟩ (enc (base : G))
      ssid (UInt16.ofNat ssid.length) ⟨0, zero32⟩ = .ok (0, b) ∧ b.value ≠ zero32 := by
  have hk0 : (k : ZMod L) ≠ 0 := Toy.natCast_ne_zero hk (by omega)
  have hz0 : (z : ZMod L) ≠ 0 := Toy.natCast_ne_zero hz (by omega)
  rcases hash3tdh_cases G zero32 zero32 ⟨i, B32.ofZ (k : ZMod L)⟩ ⟨i, B32.ofZ (z : ZMod L)⟩ base ssid hl
    ⟨0, zero32⟩ with ⟨_, _, h⟩ | ⟨h, _⟩
  · refine ⟨_, h, ?_⟩
    rw [Ne, enc_eq_zero, hT, maskedVal_ofZ, maskedVal_ofZ, ← add_smul, ← Nat.cast_add]
    exact smul_ne_zero (Toy.natCast_ne_zero (by omega) (by omega)) base_ne
  · exfalso; apply h
    rw [hT, maskedVal_ofZ, maskedVal_ofZ]
    exact ⟨smul_ne_zero hk0 base_ne, smul_ne_zero hz0 base_ne⟩

end Verif.Props

namespace Verif.Props

open Ristretto Spec Polynomial Verif.Toprf

section
attribute [local instance] Ristretto.toy Toy.hashes

/-- Servers 3 and 1 with shares of 7 (`7 + 5x`) and of zero (`3x`). -/
def toyServers : List (Share × Share) :=
  [(⟨3, B32.ofZ ((22 : ℕ) : ZMod L)⟩, ⟨3, B32.ofZ ((9 : ℕ) : ZMod L)⟩),
   (⟨1, B32.ofZ ((12 : ℕ) : ZMod L)⟩, ⟨1, B32.ofZ ((3 : ℕ) : ZMod L)⟩)]

/-- The hypotheses of C19 can be met. -/
example : ∃ betas : List Share, toyServers ≠ [] ∧ (toyServers.map (·.1.index)).Nodup ∧
    0 ∉ toyServers.map (·.1.index) ∧
    (polyOf [((7 : ℕ) : ZMod L), ((5 : ℕ) : ZMod L)]).degree < toyServers.length ∧
    (polyOf [((0 : ℕ) : ZMod L), ((3 : ℕ) : ZMod L)]).degree < toyServers.length ∧
    (polyOf [((0 : ℕ) : ZMod L), ((3 : ℕ) : ZMod L)]).eval 0 = 0 ∧
    (∀ s ∈ toyServers, OnPoly (polyOf [((7 : ℕ) : ZMod L), ((5 : ℕ) : ZMod L)]) s.1 ∧
      OnPoly (polyOf [((0 : ℕ) : ZMod L), ((3 : ℕ) : ZMod L)]) s.2 ∧ s.2.index = s.1.index) ∧
    List.Forall₂ (fun s b => ∃ s1 s2 b0, hash3tdh (ZMod L) true s1 s2 s.1 s.2 (enc (base : ZMod L)) [1, 2, 3]
      (UInt16.ofNat ([1, 2, 3] : Bytes).length) b0 = .ok (0, b)) toyServers betas ∧
    ∀ b ∈ betas, b.value ≠ zero32 := by
  have hT : tdhPoint (ZMod L) (enc (base : ZMod L)) [1, 2, 3] = base := Toy.hashToGroup_eq _
  obtain ⟨b1, h1, n1⟩ := tdh_witness (ZMod L) 22 9 3 [1, 2, 3] (by decide) hT (by norm_num) (by norm_num) (by norm_num) (by norm_num)
  obtain ⟨b2, h2, n2⟩ := tdh_witness (ZMod L) 12 3 1 [1, 2, 3] (by decide) hT (by norm_num) (by norm_num) (by norm_num) (by norm_num)
  refine ⟨[b1, b2], by simp [toyServers], by simp [toyServers], by simp [toyServers], polyOf_degree _, polyOf_degree _,
    by rw [polyOf_eval_zero]; simp, ?_, ?_, ?_⟩
  · intro s hs
    simp only [toyServers, List.mem_cons, List.not_mem_nil, or_false] at hs
    have e : UInt8.toNat 3 = 3 := rfl
    have e' : UInt8.toNat 1 = 1 := rfl
    rcases hs with rfl | rfl <;>
    · refine ⟨⟨B32.canonical_ofZ _, ?_⟩, ⟨B32.canonical_ofZ _, ?_⟩, rfl⟩ <;>
      · rw [B32.val_ofZ, polyOf_eval_cons, polyOf_eval_cons]
        simp only [polyOf, eval_zero, point, e, e']
        norm_num
  · exact .cons ⟨_, _, _, h1⟩ (.cons ⟨_, _, _, h2⟩ .nil)
  · intro b hb
    simp only [List.mem_cons, List.not_mem_nil, or_false] at hb
    rcases hb with rfl | rfl
    · exact n1
    · exact n2
end

/-! ## C20 -/

variable (G : Type) [Ristretto G] [Hashes]

theorem unblind_finalize (x : Bytes) (hx : x.length ≤ 255) (r : B32) (hr : RandomScalar r) (k : ZMod L) (hk : k ≠ 0)
    (hH : Spec.hashToGroup G Oprf.sha x ≠ 0) (N0 : B32) (y0 : B64) :
    ∃ N y, Oprf.unblind G true r (enc (k • r.val • Spec.hashToGroup G Oprf.sha x)) N0 = (0, N) ∧
      Oprf.finalize true x (UInt16.ofNat x.length) N y0 = .ok (0, y) ∧ y.toList = Spec.oprf G Oprf.sha k x := by
  have hkm : maskedVal (B32.ofZ k) ≠ 0 := by rwa [maskedVal_ofZ]
  obtain ⟨b, Z, N, y, h1, h2, h3, h4, h5⟩ := C01_oprf_correct G x hx (B32.ofZ k) r hkm hr hH zero32 zero32 zero32
    zero32 N0 y0
  rw [blind_eq G x hx r hr hH] at h1
  have hb : b = enc (r.val • Spec.hashToGroup G Oprf.sha x) := by simpa using h1.symm
  have hZ : Z = enc (k • r.val • Spec.hashToGroup G Oprf.sha x) := by
    have := congrArg Prod.snd h2
    rw [hb] at this
    simp only [Oprf.evaluate, scalarmult_enc, maskedVal_ofZ] at this
    exact this.symm
  rw [maskedVal_ofZ] at h5
  exact ⟨N, y, by rw [← hZ]; exact h3, h4, h5⟩

/-- **C20, plain mode.** The key is shared with `toprf_create_shares`; any at least threshold-many shareholders `sel`
evaluate the blinded input with `oprf_Evaluate` and the client combines with `toprf_thresholdmult`. Unblinding and
finalizing gives the output of the one-server protocol under the key (which is `Spec.oprf` by C01). -/
theorem C20_threshold_oprf (x : Bytes) (hx : x.length ≤ 255) (k r : B32) (hk : RandomScalar k) (hr : RandomScalar r)
    (hH : Spec.hashToGroup G Oprf.sha x ≠ 0) (n t : UInt8) (rnd : ℕ → B32) (out : List Share)
    (ht : 2 ≤ t.toNat) (hn : n.toNat ≤ 254) (ho : out.length = n.toNat)
    (scratch r0 b0 Z0 N0 : B32) (junk : UInt8) (y0 : B64) :
    ∃ shares blinded, createShares k n t rnd out = .ok shares ∧
      Oprf.blind G true scratch x (UInt8.ofNat x.length) r r0 b0 = .ok (0, r, blinded) ∧
      ∀ sel : List Share, sel.Nodup → sel ⊆ shares → t.toNat ≤ sel.length →
        (∀ s ∈ sel, (Oprf.evaluate G s.value blinded Z0).1 = 0) →
        ∃ β N y, thresholdmult G junk scratch
            (sel.map fun s => ⟨s.index, (Oprf.evaluate G s.value blinded Z0).2⟩) = .ok (0, β) ∧
          Oprf.unblind G true r β N0 = (0, N) ∧
          Oprf.finalize true x (UInt16.ofNat x.length) N y0 = .ok (0, y) ∧
          y.toList = Spec.oprf G Oprf.sha k.val x := by
  obtain ⟨f, shares, h1, h2, h3, _, h5, h6⟩ := C09_create_shares k (NoOverflow.of_canonical hk.1) n t rnd out ht hn
    (by omega)
  rw [← ho, List.drop_length, List.append_nil] at h1
  refine ⟨shares, _, h1, blind_eq G x hx r hr hH scratch r0 b0, ?_⟩
  intro sel hnd hsub hlen hev
  have hinj : ∀ s ∈ sel, ∀ s' ∈ sel, s.index = s'.index → s = s' := by
    intro s hs s' hs' he
    have a := h6 s (hsub hs)
    have b := h6 s' (hsub hs')
    obtain ⟨i, v⟩ := s
    obtain ⟨i', v'⟩ := s'
    simp only at he
    subst he
    congr 1
    exact B32.canonical_ext a.1 b.1 (a.2.trans b.2.symm)
  have hidx : (sel.map (·.index)).Nodup := List.Nodup.map_on (fun s hs s' hs' => hinj s hs s' hs') hnd
  have h0 : 0 ∉ sel.map (·.index) := by
    intro h
    rw [List.mem_map] at h
    obtain ⟨s, hs, he⟩ := h
    have : s.index.toNat ∈ List.range' 1 n.toNat := by
      rw [← h5]; exact List.mem_map_of_mem (hsub hs)
    rw [he, List.mem_range'_1] at this
    simp at this
  have hm := C13_thresholdmult G junk scratch Z0 f sel (r.val • Spec.hashToGroup G Oprf.sha x)
    (by intro h; rw [h] at hlen; simp at hlen; omega) hidx h0
    (lt_of_lt_of_le h2 (by exact_mod_cast hlen)) (fun s hs => h6 s (hsub hs)) hev
  rw [h3] at hm
  obtain ⟨N, y, hu, hfin, hy⟩ := unblind_finalize G x hx r hr k.val hk.val_ne hH N0 y0
  exact ⟨_, N, y, hm, hu, hfin, hy⟩

/-- **C20, pre-weighted mode.** The shareholders know the participating indexes, evaluate with `toprf_Evaluate`, and
the client combines with `toprf_thresholdcombine`. -/
theorem C20_threshold_oprf_combine (x : Bytes) (hx : x.length ≤ 255) (k r : B32) (hk : RandomScalar k)
    (hr : RandomScalar r) (hH : Spec.hashToGroup G Oprf.sha x ≠ 0) (n t : UInt8) (rnd : ℕ → B32) (out : List Share)
    (ht : 2 ≤ t.toNat) (hn : n.toNat ≤ 254) (ho : out.length = n.toNat)
    (scratch r0 b0 N0 res0 : B32) (Z0 : Share → Share) (y0 : B64) :
    ∃ shares blinded, createShares k n t rnd out = .ok shares ∧
      Oprf.blind G true scratch x (UInt8.ofNat x.length) r r0 b0 = .ok (0, r, blinded) ∧
      ∀ (sel : List Share) (peers : List UInt8), sel.Nodup → sel ⊆ shares → t.toNat ≤ sel.length →
        peers.Perm (sel.map (·.index)) →
        ∃ β N y, thresholdcombine G
            (sel.map fun s => (Toprf.evaluate G s blinded s.index peers (Z0 s)).2) res0 = .ok (0, β) ∧
          Oprf.unblind G true r β N0 = (0, N) ∧
          Oprf.finalize true x (UInt16.ofNat x.length) N y0 = .ok (0, y) ∧
          y.toList = Spec.oprf G Oprf.sha k.val x := by
  obtain ⟨f, shares, h1, h2, h3, _, h5, h6⟩ := C09_create_shares k (NoOverflow.of_canonical hk.1) n t rnd out ht hn
    (by omega)
  rw [← ho, List.drop_length, List.append_nil] at h1
  refine ⟨shares, _, h1, blind_eq G x hx r hr hH scratch r0 b0, ?_⟩
  intro sel peers hnd hsub hlen hp
  have hinj : ∀ s ∈ sel, ∀ s' ∈ sel, s.index = s'.index → s = s' := by
    intro s hs s' hs' he
    have a := h6 s (hsub hs)
    have b := h6 s' (hsub hs')
    obtain ⟨i, v⟩ := s
    obtain ⟨i', v'⟩ := s'
    simp only at he
    subst he
    congr 1
    exact B32.canonical_ext a.1 b.1 (a.2.trans b.2.symm)
  have hidx : (sel.map (·.index)).Nodup := List.Nodup.map_on (fun s hs s' hs' => hinj s hs s' hs') hnd
  have h0 : 0 ∉ sel.map (·.index) := by
    intro h
    rw [List.mem_map] at h
    obtain ⟨s, hs, he⟩ := h
    have : s.index.toNat ∈ List.range' 1 n.toNat := by
      rw [← h5]; exact List.mem_map_of_mem (hsub hs)
    rw [he, List.mem_range'_1] at this
    simp at this
  have hm := C16_evaluate_combine G f sel (r.val • Spec.hashToGroup G Oprf.sha x) Z0 res0
    (by intro h; rw [h] at hlen; simp at hlen; omega) hidx h0
    (lt_of_lt_of_le h2 (by exact_mod_cast hlen)) (fun s hs => h6 s (hsub hs)) peers hp (fun s => (Z0 s).index)
  rw [h3] at hm
  obtain ⟨N, y, hu, hfin, hy⟩ := unblind_finalize G x hx r hr k.val hk.val_ne hH N0 y0
  exact ⟨_, N, y, hm, hu, hfin, hy⟩

section
attribute [local instance] Ristretto.toy
/-- The hypotheses of C20 can be met: key 7, blind 5, 2-of-3. -/
example : RandomScalar (B32.ofZ ((7 : ℕ) : ZMod L)) ∧ RandomScalar (B32.ofZ ((5 : ℕ) : ZMod L)) ∧
    Spec.hashToGroup (ZMod L) (@Oprf.sha Toy.hashes) [1, 2] ≠ 0 ∧ 2 ≤ (2 : UInt8).toNat ∧ (3 : UInt8).toNat ≤ 254 :=
  ⟨Toy.randomScalar 7 (by norm_num) (by norm_num), Toy.randomScalar 5 (by norm_num) (by norm_num),
    Toy.hashToGroup_ne _, by decide, by decide⟩
end

end Verif.Props
