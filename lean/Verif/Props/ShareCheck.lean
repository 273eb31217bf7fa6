import Verif.Proofs.ShareCheck

/-!
# Property C94: the check of the shares in the test of the key generation, `/repo/src/tests/tp-dkg.c`

The specification is `OnOne`: all shares lie on one polynomial of degree below the threshold. It is about the scalars
of the shares only and knows nothing of shuffles.
-/

set_option linter.unusedSectionVars false

namespace Verif.Props

open Ristretto Spec Polynomial Verif.Tests Verif.Toprf

/-- The shares lie on one polynomial of degree below `t`. -/
def OnOne (t : ℕ) (shares : List Share) : Prop :=
  ∃ f : (ZMod L)[X], f.degree < t ∧ ∀ s ∈ shares, f.eval (point s.index) = maskedVal s.value

/-- **C94, shuffling.** For all values of `rand()` the shuffle stays inside the array and permutes it. -/
theorem C94_shuffle (rand : ℕ → ℕ) (hr : ∀ i, rand i ≤ randMax) (array : List UInt8) :
    ∃ b, shuffle array.length rand array = .ok b ∧ b.Perm array :=
  shuffle_perm hr le_rfl

/-- **C94, every exchange occurs.** Some values of `rand()` exchange two given elements and leave the others. -/
theorem C94_reaches (n p q : ℕ) (hn : n ≤ 255) (hpq : p < q) (hqn : q < n) :
    ∃ rand : ℕ → ℕ, (∀ i, rand i ≤ randMax) ∧ ∀ (a : List UInt8) (ha : a.length = n),
      shuffle n rand a = .ok ((a.set q (a[p]'(by omega))).set p (a[q]'(by omega))) :=
  shuffle_swap hn hpq hqn

section
variable (G : Type) [Ristretto G]

theorem toNat_range {n k : ℕ} (hn : n ≤ 255) (hk : k < n) : (UInt8.ofNat k).toNat = k := by
  rw [UInt8.toNat_ofNat', Nat.mod_eq_of_lt (by norm_num; omega)]

theorem range_lt {n : ℕ} (hn : n ≤ 255) : ∀ k ∈ (List.range n).map UInt8.ofNat, k.toNat < n := by
  intro k hk
  obtain ⟨i, hi, rfl⟩ := List.mem_map.1 hk
  rw [List.mem_range] at hi
  rw [toNat_range hn hi]
  exact hi

theorem range_nodup {n : ℕ} (hn : n ≤ 255) : ((List.range n).map UInt8.ofNat).Nodup := by
  refine List.Nodup.map_on ?_ List.nodup_range
  intro a ha b hb h
  rw [List.mem_range] at ha hb
  rw [← toNat_range hn ha, ← toNat_range hn hb, h]

/-- What the pass needs of the positions. -/
structure Good (shares : List Share) (pos : List UInt8) : Prop where
  lt : ∀ k ∈ pos, k.toNat < shares.length
  nodup : pos.Nodup
  len : pos.length = shares.length

theorem Good.perm {shares : List Share} {p q : List UInt8} (h : Good shares p) (e : q.Perm p) : Good shares q :=
  ⟨fun k hk => h.lt k (e.subset hk), e.nodup_iff.2 h.nodup, e.length_eq.trans h.len⟩

theorem good_range {shares : List Share} (hn : shares.length ≤ 255) :
    Good shares ((List.range shares.length).map UInt8.ofNat) :=
  ⟨range_lt hn, range_nodup hn, by simp⟩

theorem mem_pick {shares : List Share} {pos : List UInt8} (h : ∀ k ∈ pos, k.toNat < shares.length) {s : Share}
    (hs : s ∈ pick shares pos) : s ∈ shares := by
  obtain ⟨k, hk, rfl⟩ := List.mem_map.1 hs
  rw [List.getD_eq_getElem?_getD, List.getElem?_eq_getElem (h k hk)]
  exact List.getElem_mem _

theorem pick_nodup {shares : List Share} {pos : List UInt8} (h : ∀ k ∈ pos, k.toNat < shares.length) (hp : pos.Nodup)
    (hn : (shares.map (·.index)).Nodup) : ((pick shares pos).map (·.index)).Nodup := by
  rw [pick, List.map_map]
  refine List.Nodup.map_on ?_ hp
  intro a ha b hb e
  have h1 := h a ha
  have h2 := h b hb
  simp only [Function.comp_apply, List.getD_eq_getElem?_getD, List.getElem?_eq_getElem h1,
    List.getElem?_eq_getElem h2, Option.getD_some] at e
  have e' : (shares.map (·.index))[a.toNat]'(by simpa using h1) = (shares.map (·.index))[b.toNat]'(by simpa using h2) := by
    simpa using e
  exact UInt8.toNat_inj.1 ((List.Nodup.getElem_inj_iff hn).1 e')

/-- One pass over good positions, for shares on one polynomial. -/
theorem pass_eq (junk : UInt8) (scratch : B32) (shares : List Share) (t : ℕ) (ht : 1 ≤ t) (htn : t ≤ shares.length)
    (hn : (shares.map (·.index)).Nodup) (h0 : 0 ∉ shares.map (·.index)) (pos : List UInt8) (hg : Good shares pos)
    (f : (ZMod L)[X]) (hf : f.degree < t) (he : ∀ s ∈ pick shares (pos.take t), f.eval (point s.index) = scalarOf s) :
    ∃ r, respond G shares pos t 0 = .ok r ∧
      ((∀ s ∈ pick shares (pos.take t), scalarOf s ≠ 0) ∧
        thresholdmult G junk scratch r = .ok (0, enc (f.eval 0 • (base : G))) ∨
      (∃ s ∈ pick shares (pos.take t), scalarOf s = 0) ∧ ∃ v, thresholdmult G junk scratch r = .ok (1, v)) := by
  have hlt : ∀ k ∈ pos.take t, k.toNat < shares.length := fun k hk => hg.lt k (List.mem_of_mem_take hk)
  refine ⟨_, respond_eq G shares pos hg.lt t 0 (by rw [hg.len]; omega), ?_⟩
  rw [List.drop_zero]
  have hlen : (pick shares (pos.take t)).length = t := by
    rw [pick, List.length_map, List.length_take, hg.len]; omega
  refine combine_eq G junk scratch _ ?_ (pick_nodup hlt (hg.nodup.sublist (List.take_sublist _ _)) hn) ?_ f
    (by rw [hlen]; exact hf) he
  · intro h
    rw [h] at hlen
    simp at hlen
    omega
  · intro h
    obtain ⟨s, hs, e⟩ := List.mem_map.1 h
    exact h0 (List.mem_map.2 ⟨s, mem_pick hlt hs, e⟩)

theorem verifyLoop_ok (junk : UInt8) (scratch : B32) (rand : ℕ → ℕ → ℕ) (hr : ∀ k i, rand k i ≤ randMax)
    (shares : List Share) (t : ℕ) (ht : 1 ≤ t) (htn : t ≤ shares.length)
    (hn : (shares.map (·.index)).Nodup) (h0 : 0 ∉ shares.map (·.index)) (hz : ∀ s ∈ shares, scalarOf s ≠ 0)
    (f : (ZMod L)[X]) (hf : f.degree < t) (he : ∀ s ∈ shares, f.eval (point s.index) = scalarOf s) :
    ∀ (m k : ℕ) (pos : List UInt8), Good shares pos →
      verifyLoop G junk scratch rand shares t (enc (f.eval 0 • (base : G))) m k pos = .ok 0
  | 0, _, _, _ => rfl
  | m + 1, k, pos, hg => by
    obtain ⟨q, e, hq⟩ := shuffle_perm (hr k) (n := shares.length) (a := pos) (by rw [hg.len])
    have hg' := hg.perm hq
    have hlt : ∀ k ∈ q.take t, k.toNat < shares.length := fun k hk => hg'.lt k (List.mem_of_mem_take hk)
    obtain ⟨r, hr1, hr2⟩ := pass_eq G junk scratch shares t ht htn hn h0 q hg' f hf
      (fun s hs => he s (mem_pick hlt hs))
    rcases hr2 with ⟨_, e2⟩ | ⟨⟨s, hs, e3⟩, _⟩
    · rw [verifyLoop, e, C.ok_bind, hr1, C.ok_bind, e2, C.ok_bind]
      simp only [ne_eq, not_true_eq_false, if_false]
      exact verifyLoop_ok junk scratch rand hr shares t ht htn hn h0 hz f hf he m (k + 1) q hg'
    · exact absurd e3 (hz s (mem_pick hlt hs))

/-- **C94, correct shares pass.** Shares on one polynomial of degree below the threshold are accepted for all values of
`rand()`, unless one of them is 0. -/
theorem C94_accepts (junk : UInt8) (scratch : B32) (rand : ℕ → ℕ → ℕ) (hr : ∀ k i, rand k i ≤ randMax)
    (shares : List Share) (t : ℕ) (ht : 1 ≤ t) (htn : t ≤ shares.length)
    (hn : (shares.map (·.index)).Nodup) (h0 : 0 ∉ shares.map (·.index)) (hz : ∀ s ∈ shares, maskedVal s.value ≠ 0)
    (h : OnOne t shares) : verifyShares G junk scratch rand shares t = .ok 0 := by
  obtain ⟨f, hf, he⟩ := h
  have hlen : shares.length ≤ 255 := by simpa using nodup_length hn h0
  have hg := good_range hlen
  have hlt : ∀ k ∈ ((List.range shares.length).map UInt8.ofNat).take t, k.toNat < shares.length :=
    fun k hk => hg.lt k (List.mem_of_mem_take hk)
  obtain ⟨r, hr1, hr2⟩ := pass_eq G junk scratch shares t ht htn hn h0 _ hg f hf
    (fun s hs => he s (mem_pick hlt hs))
  rcases hr2 with ⟨_, e2⟩ | ⟨⟨s, hs, e3⟩, _⟩
  · unfold verifyShares
    rw [if_neg (by omega)]
    simp only [hr1, C.ok_bind, e2]
    simp only [ne_eq, not_true_eq_false, if_false]
    exact verifyLoop_ok G junk scratch rand hr shares t ht htn hn h0 hz f hf he (t - 1) 0 _ hg
  · exact absurd e3 (hz s (mem_pick hlt hs))

/-- **C94, no wrong share is safe from the check.** If the check accepts for all values of `rand()`, the shares lie on
one polynomial of degree below the threshold. So for wrong shares some shuffle finds the error. -/
theorem C94_detects_partial (junk : UInt8) (scratch : B32) (shares : List Share) (t : ℕ) (ht : 2 ≤ t) (htn : t ≤ shares.length)
    (hn : (shares.map (·.index)).Nodup) (h0 : 0 ∉ shares.map (·.index))
    (h : ∀ rand : ℕ → ℕ → ℕ, (∀ k i, rand k i ≤ randMax) → verifyShares G junk scratch rand shares t = .ok 0) :
    OnOne t shares := by
  classical
  have hlen : shares.length ≤ 255 := by simpa using nodup_length hn h0
  set pos := (List.range shares.length).map UInt8.ofNat with hpos
  have hg : Good shares pos := good_range hlen
  have hposlen : pos.length = shares.length := hg.len
  have hposk : ∀ k (hk : k < shares.length), pos[k]'(by omega) = UInt8.ofNat k := by
    intro k hk; simp [hpos]
  have hlt : ∀ k ∈ pos.take t, k.toNat < shares.length := fun k hk => hg.lt k (List.mem_of_mem_take hk)
  have hpick : ∀ {q : List UInt8}, Good shares q → (pick shares (q.take t)).length = t := by
    intro q hq
    rw [pick, List.length_map, List.length_take, hq.len]; omega
  obtain ⟨f, hf, he⟩ := interp (pick shares (pos.take t))
    (pick_nodup hlt (hg.nodup.sublist (List.take_sublist _ _)) hn)
  rw [hpick hg] at hf
  obtain ⟨r, hr1, hr2⟩ := pass_eq G junk scratch shares t (by omega) htn hn h0 pos hg f hf he
  have hgetD : ∀ k (hk : k < shares.length), shares.getD (UInt8.ofNat k).toNat ⟨0, zero32⟩ = shares[k] := by
    intro k hk
    rw [toNat_range hlen hk, List.getD_eq_getElem?_getD, List.getElem?_eq_getElem hk, Option.getD_some]
  have hmem : ∀ {q : List UInt8} (k j : ℕ) (hk : k < shares.length) (hj : j < q.length), j < t →
      q[j] = UInt8.ofNat k → shares[k] ∈ pick shares (q.take t) := by
    intro q k j hk hj hjt e
    rw [pick, List.mem_map]
    refine ⟨UInt8.ofNat k, ?_, hgetD k hk⟩
    rw [← e, List.mem_take_iff_getElem]
    exact ⟨j, by omega, rfl⟩
  refine ⟨f, hf, fun s hs => ?_⟩
  obtain ⟨k, hk, rfl⟩ := List.getElem_of_mem hs
  by_cases hkt : k < t
  · exact he _ (hmem k k hk (by omega) hkt (hposk k hk))
  · -- exchange the last of the first `t` positions with position `k`
    obtain ⟨rand, hrand, hswap⟩ := shuffle_swap hlen (show t - 1 < k by omega) hk
    have hv := h (fun _ => rand) (fun _ => hrand)
    have hsw := hswap pos hposlen
    set q := (pos.set k (pos[t - 1]'(by omega))).set (t - 1) (pos[k]'(by omega)) with hq
    have hqperm : q.Perm pos := swap_perm pos (t - 1) k (by omega) (by omega)
    have hgq := hg.perm hqperm
    have hqlen : q.length = shares.length := hgq.len
    have hltq : ∀ k ∈ q.take t, k.toNat < shares.length := fun k hk => hgq.lt k (List.mem_of_mem_take hk)
    obtain ⟨g, hgd, hge⟩ := interp (pick shares (q.take t))
      (pick_nodup hltq (hgq.nodup.sublist (List.take_sublist _ _)) hn)
    rw [hpick hgq] at hgd
    obtain ⟨r', hr1', hr2'⟩ := pass_eq G junk scratch shares t (by omega) htn hn h0 q hgq g hgd hge
    -- both passes succeeded with the same value
    unfold verifyShares at hv
    rw [if_neg (by omega)] at hv
    simp only [← hpos, hr1, C.ok_bind] at hv
    rcases hr2 with ⟨_, e2⟩ | ⟨_, v, e2⟩
    · rw [e2, C.ok_bind] at hv
      simp only [ne_eq, not_true_eq_false, if_false] at hv
      rw [show t - 1 = (t - 2) + 1 by omega, verifyLoop, hsw, C.ok_bind, hr1', C.ok_bind] at hv
      rcases hr2' with ⟨_, e3⟩ | ⟨_, v, e3⟩
      · rw [e3, C.ok_bind] at hv
        simp only [ne_eq, not_true_eq_false, if_false] at hv
        have heq : enc (f.eval 0 • (base : G)) = enc (g.eval 0 • (base : G)) := by
          by_contra hc
          rw [if_pos hc] at hv
          cases hv
        have heq' : f.eval 0 = g.eval 0 := smul_left_injective (ZMod L) (base_ne (G := G)) (enc_injective heq)
        -- so the polynomials agree at 0 and at the first `t - 1` positions
        have hfg : f = g := by
          have hnd : ((0 : UInt8) :: ((pick shares (pos.take (t - 1))).map (·.index))).Nodup := by
            refine List.nodup_cons.2 ⟨fun hc => ?_, pick_nodup (fun k hk => hg.lt k (List.mem_of_mem_take hk))
              (hg.nodup.sublist (List.take_sublist _ _)) hn⟩
            obtain ⟨s, hs, e⟩ := List.mem_map.1 hc
            exact h0 (List.mem_map.2 ⟨s, mem_pick (fun k hk => hg.lt k (List.mem_of_mem_take hk)) hs, e⟩)
          have hcard : ((0 : UInt8) :: ((pick shares (pos.take (t - 1))).map (·.index))).toFinset.card = t := by
            rw [List.toFinset_card_of_nodup hnd, List.length_cons, List.length_map, pick, List.length_map,
              List.length_take, hposlen]
            omega
          refine Polynomial.eq_of_degrees_lt_of_eval_index_eq
            ((0 : UInt8) :: ((pick shares (pos.take (t - 1))).map (·.index))).toFinset (v := point)
            (fun a _ b _ h => point_inj h) (by rw [hcard]; exact hf) (by rw [hcard]; exact hgd) ?_
          intro i hi
          rw [List.mem_toFinset, List.mem_cons] at hi
          rcases hi with rfl | hi
          · simpa [point] using heq'
          · obtain ⟨s, hs, rfl⟩ := List.mem_map.1 hi
            obtain ⟨a, ha, rfl⟩ := List.mem_map.1 hs
            obtain ⟨j, hj, rfl⟩ := List.mem_take_iff_getElem.1 ha
            have hjlt : j < t - 1 := by omega
            have hjn : j < shares.length := by omega
            rw [hposk j hjn, hgetD j hjn]
            have hqj : q[j]'(by omega) = UInt8.ofNat j := by
              simp only [hq, List.getElem_set]
              rw [if_neg (by omega), if_neg (by omega), hposk j hjn]
            rw [he _ (hmem j j hjn (by omega) (by omega) (hposk j hjn)),
              hge _ (hmem j j hjn (by omega) (by omega) hqj)]
        rw [hfg]
        refine hge _ (hmem k (t - 1) hk (by omega) (by omega) ?_)
        simp only [hq, List.getElem_set, if_pos]
        exact hposk k hk
      · rw [e3, C.ok_bind] at hv
        simp at hv
    · rw [e2, C.ok_bind] at hv
      simp at hv

theorem verifyLoop_zero (junk : UInt8) (scratch : B32) (shares : List Share) (t : ℕ) (v : B32) (pos : List UInt8)
    (hl : pos.length = shares.length) (r : List Share) (h1 : respond G shares pos t 0 = .ok r)
    (h2 : thresholdmult G junk scratch r = .ok (0, v)) :
    ∀ m k, verifyLoop G junk scratch (fun _ _ => 0) shares t v m k pos = .ok 0
  | 0, _ => rfl
  | m + 1, k => by
    rw [verifyLoop, shuffle_zero (by rw [hl]), C.ok_bind, h1, C.ok_bind, h2, C.ok_bind]
    simp only [ne_eq, not_true_eq_false, if_false]
    exact verifyLoop_zero junk scratch shares t v pos hl r h1 h2 m (k + 1)

/-- **C94 does not hold for single runs.** When `rand()` returns 0 the shuffles change nothing, so the check accepts
whatever the shares after the first `t` are. -/
theorem C94_sample_violated (junk : UInt8) (scratch : B32) (shares : List Share) (t : ℕ) (ht : 1 ≤ t) (htn : t ≤ shares.length)
    (hn : (shares.map (·.index)).Nodup) (h0 : 0 ∉ shares.map (·.index))
    (hz : ∀ s ∈ shares.take t, maskedVal s.value ≠ 0) :
    verifyShares G junk scratch (fun _ _ => 0) shares t = .ok 0 := by
  have hlen : shares.length ≤ 255 := by simpa using nodup_length hn h0
  have hg := good_range hlen
  set pos := (List.range shares.length).map UInt8.ofNat with hpos
  have hlt : ∀ k ∈ pos.take t, k.toNat < shares.length := fun k hk => hg.lt k (List.mem_of_mem_take hk)
  obtain ⟨f, hf, he⟩ := interp (pick shares (pos.take t))
    (pick_nodup hlt (hg.nodup.sublist (List.take_sublist _ _)) hn)
  have hpl : (pick shares (pos.take t)).length = t := by
    rw [pick, List.length_map, List.length_take, hg.len]; omega
  rw [hpl] at hf
  obtain ⟨r, hr1, hr2⟩ := pass_eq G junk scratch shares t ht htn hn h0 pos hg f hf he
  rcases hr2 with ⟨_, e2⟩ | ⟨⟨s, hs, e3⟩, _⟩
  · unfold verifyShares
    rw [if_neg (by omega)]
    simp only [← hpos, hr1, C.ok_bind, e2]
    simp only [ne_eq, not_true_eq_false, if_false]
    exact verifyLoop_zero G junk scratch shares t _ pos hg.len r hr1 e2 (t - 1) 0
  · refine absurd e3 (hz s ?_)
    obtain ⟨a, ha, rfl⟩ := List.mem_map.1 hs
    obtain ⟨j, hj, rfl⟩ := List.mem_take_iff_getElem.1 ha
    have hjn : j < shares.length := by have := hg.len; omega
    have e : pos[j]'(by omega) = UInt8.ofNat j := by simp [hpos]
    rw [e, toNat_range hlen hjn, List.getD_eq_getElem?_getD, List.getElem?_eq_getElem hjn, Option.getD_some,
      List.mem_take_iff_getElem]
    exact ⟨j, by omega, rfl⟩

end

/-- Five shares: those of the peers 1 to 4 lie on `3 x² + 5 x + 7`, that of peer 5 should be 107. -/
def wrongShares : List Share :=
  [⟨1, B32.ofZ 15⟩, ⟨2, B32.ofZ 29⟩, ⟨3, B32.ofZ 49⟩, ⟨4, B32.ofZ 75⟩, ⟨5, B32.ofZ 1⟩]

/-- **C94, a wrong share that is not found.** -/
theorem C94_wrong_violated (G : Type) [Ristretto G] (junk : UInt8) (scratch : B32) :
    ¬ OnOne 3 wrongShares ∧ verifyShares G junk scratch (fun _ _ => 0) wrongShares 3 = .ok 0 := by
  constructor
  · rintro ⟨f, hf, h⟩
    rw [eq_polyOf f 3 hf] at h
    simp only [wrongShares, List.forall_mem_cons, maskedVal_ofZ, point] at h
    obtain ⟨-, h2, h3, h4, h5, -⟩ := h
    have e2 : ((2 : UInt8).toNat : ZMod L) = 2 := rfl
    have e3 : ((3 : UInt8).toNat : ZMod L) = 3 := rfl
    have e4 : ((4 : UInt8).toNat : ZMod L) = 4 := rfl
    have e5 : ((5 : UInt8).toNat : ZMod L) = 5 := rfl
    rw [e2] at h2
    rw [e3] at h3
    rw [e4] at h4
    rw [e5] at h5
    simp [List.range_succ, polyOf] at h2 h3 h4 h5
    have : (106 : ZMod L) = 0 := by linear_combination -(h2 - 3 * h3 + 3 * h4 - h5)
    exact absurd this (by decide +kernel)
  · refine C94_sample_violated G junk scratch wrongShares 3 (by decide) (by decide) (by decide) (by decide) ?_
    intro s hs
    simp only [wrongShares, List.take_succ_cons, List.take_zero, List.mem_cons, List.not_mem_nil, or_false] at hs
    rcases hs with rfl | rfl | rfl <;> rw [maskedVal_ofZ] <;> decide +kernel

/-! ## Non-trivial inputs that meet the hypotheses -/

/-- The correct shares. -/
def rightShares : List Share :=
  [⟨1, B32.ofZ 15⟩, ⟨2, B32.ofZ 29⟩, ⟨3, B32.ofZ 49⟩, ⟨4, B32.ofZ 75⟩, ⟨5, B32.ofZ 107⟩]

example : OnOne 3 rightShares ∧ 1 ≤ 3 ∧ 3 ≤ rightShares.length ∧ (rightShares.map (·.index)).Nodup ∧
    0 ∉ rightShares.map (·.index) ∧ ∀ s ∈ rightShares, maskedVal s.value ≠ 0 := by
  refine ⟨⟨polyOf [7, 5, 3], polyOf_degree [7, 5, 3], ?_⟩, by decide, by decide, by decide, by decide, ?_⟩
  · simp only [rightShares, List.forall_mem_cons, maskedVal_ofZ, point]
    refine ⟨?_, ?_, ?_, ?_, ?_, by simp⟩
    all_goals simp [polyOf]; norm_num
  · simp only [rightShares, List.forall_mem_cons, maskedVal_ofZ]
    exact ⟨by decide +kernel, by decide +kernel, by decide +kernel, by decide +kernel, by decide +kernel, by simp⟩

example : ∃ rand : ℕ → ℕ, (∀ i, rand i ≤ randMax) ∧ rand 0 = 2147483647 ∧ rand 3 = 77 :=
  ⟨fun i => if i = 0 then 2147483647 else if i = 3 then 77 else 0,
    fun i => by dsimp only; unfold randMax; split_ifs <;> omega, rfl, rfl⟩

end Verif.Props
