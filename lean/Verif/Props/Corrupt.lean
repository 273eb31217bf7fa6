import Verif.Model.Corrupt
import Verif.Props.Dkg
import Verif.Proofs.Toy

/-!
# Property C101: the test build with errors (`/repo/src/tp-dkg.c:1045-1058`, `1148-1161`)
-/

set_option linter.unusedSectionVars false

namespace Verif.Props

open Ristretto Spec Polynomial Corrupt

/-! ## The altered shares -/

/-- The value of a share after the change differs by less than 2^16 and not by 0. -/
theorem flip_toNat (s : Share) : ∃ d : ℤ, d ≠ 0 ∧ |d| < 2 ^ 16 ∧ ((flip s).value.toNat : ℤ) = s.value.toNat + d := by
  obtain ⟨a, b, l, hl⟩ : ∃ a b l, s.value.toList = a :: b :: l := by
    have h := s.value.length_toList
    match h' : s.value.toList with
    | [] => rw [h'] at h; simp at h
    | [_] => rw [h'] at h; simp at h
    | a :: b :: l => exact ⟨a, b, l, rfl⟩
  have hb : s.value[1] = b := by
    have : s.value.toList[1]? = some b := by rw [hl]; rfl
    rw [Vector.getElem?_toList] at this
    rw [Vector.getElem?_eq_getElem (by decide)] at this
    exact Option.some.inj this
  have hset : (flip s).value.toList = a :: (b ^^^ 0xff) :: l := by
    show (s.value.set 1 (s.value[1] ^^^ 0xff)).toList = _
    rw [Vector.toList_set, hl, hb]
    rfl
  have e1 : s.value.toNat = a.toNat + 256 * (b.toNat + 256 * leNat l) := by
    show leNat s.value.toList = _
    rw [hl]; rfl
  have e2 : (flip s).value.toNat = a.toNat + 256 * ((b ^^^ 0xff).toNat + 256 * leNat l) := by
    show leNat (flip s).value.toList = _
    rw [hset]; rfl
  have hx : (b ^^^ 0xff).toNat = 255 - b.toNat := by
    have : ∀ b : UInt8, (b ^^^ 0xff).toNat = 255 - b.toNat := by
      intro b
      have h : ∀ k : Fin 256, (UInt8.ofNat k.val ^^^ 0xff).toNat = 255 - (UInt8.ofNat k.val).toNat := by decide +kernel
      have := h ⟨b.toNat, b.toNat_lt⟩
      simpa using this
    exact this b
  have hb' := b.toNat_lt
  refine ⟨256 * (255 - 2 * (b.toNat : ℤ)), by omega, ?_, ?_⟩
  · rw [abs_lt]
    constructor <;> push_cast <;> omega
  · rw [e1, e2, hx]
    push_cast
    omega

/-- **C101, an altered share is another share.** For all canonical values. -/
theorem C101_differs (s : Share) (h : s.value.Canonical) : maskedVal (flip s).value ≠ maskedVal s.value := by
  obtain ⟨d, d0, d1, e⟩ := flip_toNat s
  have hL := L_gt
  have h255 := L_lt_255
  have hc : s.value.toNat < L := h
  intro hc'
  rw [abs_lt] at d1
  have hlt : s.value.toNat < 2 ^ 255 := by omega
  have hlt' : (flip s).value.toNat < 2 ^ 255 := by
    have : L + 2 ^ 16 < 2 ^ 255 := by norm_num [L]
    omega
  unfold maskedVal at hc'
  rw [Nat.mod_eq_of_lt hlt, Nat.mod_eq_of_lt hlt'] at hc'
  have hz : ((d : ℤ) : ZMod L) = 0 := by
    have h1 : (((flip s).value.toNat : ℤ) : ZMod L) = ((s.value.toNat : ℤ) : ZMod L) := by
      rw [Int.cast_natCast, Int.cast_natCast]; exact hc'
    rw [e, Int.cast_add] at h1
    simpa using h1
  rw [ZMod.intCast_zmod_eq_zero_iff_dvd] at hz
  have := Int.le_of_dvd (abs_pos.2 d0) ((dvd_abs _ _).2 hz)
  have habs : |d| < 2 ^ 16 := by rw [abs_lt]; exact d1
  omega

section
variable (G : Type) [Ristretto G]

theorem honest_feldman_t (t : ℕ) (rnd : ℕ → B32) (self : UInt8) : feldmanOk G self
    ((List.range t).map fun k => enc ((rnd k).val • (base : G))) (Dkg.dealt t rnd self) := by
  refine ⟨(List.range t).map fun k => (rnd k).val • (base : G), by rw [List.map_map]; rfl, ?_⟩
  have := commitEval_smul G (point self) ((List.range t).map fun k => (rnd k).val)
  rw [List.map_map] at this
  have e : (fun k => (rnd k).val • (base : G)) = (fun c : ZMod L => c • (base : G)) ∘ fun k => (rnd k).val := rfl
  rw [e, this, Dkg.dealt]
  simp only [maskedVal_ofZ]
  rfl

/-- **C101, an altered share does not verify.** For all coefficients, thresholds and receivers: what a dealer deals satisfies
Feldman's equation, and does not after the change. -/
theorem C101_rejected (t : ℕ) (rnd : ℕ → B32) (self : UInt8) :
    feldmanOk G self ((List.range t).map fun k => enc ((rnd k).val • (base : G))) (Dkg.dealt t rnd self) ∧
    ¬ feldmanOk G self ((List.range t).map fun k => enc ((rnd k).val • (base : G))) (flip (Dkg.dealt t rnd self)) := by
  refine ⟨honest_feldman_t G t rnd self, ?_⟩
  rintro ⟨Cs, h1, h2⟩
  obtain ⟨Cs', h1', h2'⟩ := honest_feldman_t G t rnd self
  have : Cs = Cs' := (List.map_injective_iff.2 enc_injective) (h1.symm.trans h1')
  subst this
  exact C101_differs (Dkg.dealt t rnd self) (B32.canonical_ofZ _) (smul_base_inj (G := G) (h2.trans h2'.symm))

/-! ## Which shares are altered -/

theorem corruptRow_rest (t index : UInt8) : ∀ (l : List Share) (i cnt : ℕ), t.toNat ≤ cnt + 1 →
    (corruptRow t index i l cnt).1 = l ∧ t.toNat ≤ (corruptRow t index i l cnt).2 + 1
  | [], _, _, h => ⟨rfl, h⟩
  | s :: l, i, cnt, h => by
    unfold corruptRow
    split
    · obtain ⟨h1, h2⟩ := corruptRow_rest t index l (i + 1) (cnt + 1) (by omega)
      dsimp only
      rw [if_neg (by omega), h1]
      exact ⟨rfl, h2⟩
    · obtain ⟨h1, h2⟩ := corruptRow_rest t index l (i + 1) cnt h
      dsimp only
      rw [h1]
      exact ⟨rfl, h2⟩

theorem corruptAll_rest (t : UInt8) : ∀ (rows : List (List Share)) (index : UInt8) (cnt : ℕ), t.toNat ≤ cnt + 1 →
    corruptAll t index rows cnt = rows
  | [], _, _, _ => rfl
  | row :: l, index, cnt, h => by
    obtain ⟨h1, h2⟩ := corruptRow_rest t index row 0 cnt h
    unfold corruptAll
    dsimp only
    rw [h1, corruptAll_rest t l (index + 1) _ h2]

theorem corruptRow_one (t : UInt8) (f : ℕ → Share) : ∀ m i : ℕ, 1 ≤ i →
    corruptRow t 1 i ((List.range' i m).map f) (i - 1) =
      ((List.range' i m).map fun j => if j < t.toNat then flip (f j) else f j, i - 1 + m)
  | 0, _, _ => rfl
  | m + 1, i, h => by
    have ih := corruptRow_one t f m (i + 1) (by omega)
    rw [show i + 1 - 1 = i - 1 + 1 by omega] at ih
    rw [List.range'_succ, List.map_cons, List.map_cons, corruptRow, if_pos (by show i + 1 ≠ 1; omega), ih]
    dsimp only
    by_cases hi : i < t.toNat
    · rw [if_pos (by omega), if_pos hi, show i - 1 + 1 + m = i - 1 + (m + 1) by omega]
    · rw [if_neg (by omega), if_neg hi, show i - 1 + 1 + m = i - 1 + (m + 1) by omega]

/-- **C101, which shares are altered.** For all numbers of peers and thresholds `t ≤ n`: the first dealer alters its shares for
the peers 2, …, `t`; no other share is altered. -/
theorem C101_altered (n : ℕ) (t : UInt8) (hn : 1 ≤ n) (ht : t.toNat ≤ n) (f : ℕ → ℕ → Share) :
    corruptAll t 1 ((List.range n).map fun d => (List.range n).map (f d)) 0 =
      (List.range n).map fun d => (List.range n).map fun j =>
        if d = 0 ∧ 2 ≤ j + 1 ∧ j + 1 ≤ t.toNat then flip (f d j) else f d j := by
  obtain ⟨m, rfl⟩ : ∃ m, n = m + 1 := ⟨n - 1, by omega⟩
  have hr : ∀ g : ℕ → Share, (List.range (m + 1)).map g = g 0 :: (List.range' 1 m).map g := by
    intro g
    rw [List.range_eq_range', List.range'_succ, List.map_cons]
  have hr' : ∀ g : ℕ → List Share, (List.range (m + 1)).map g = g 0 :: (List.range' 1 m).map g := by
    intro g
    rw [List.range_eq_range', List.range'_succ, List.map_cons]
  have h1 : corruptRow t 1 0 ((List.range (m + 1)).map (f 0)) 0 =
      ((List.range (m + 1)).map fun j => if 2 ≤ j + 1 ∧ j + 1 ≤ t.toNat then flip (f 0 j) else f 0 j, m) := by
    rw [hr, hr, corruptRow, if_neg (by show ¬ (0 + 1 ≠ 1); decide)]
    have := corruptRow_one t (f 0) m 1 le_rfl
    rw [show (1 : ℕ) - 1 = 0 from rfl, Nat.zero_add] at this
    rw [Nat.zero_add, this]
    dsimp only
    rw [if_neg (by omega)]
    congr 2
    apply List.map_congr_left
    intro j hj
    have := (List.mem_range'_1.1 hj).1
    by_cases h : j < t.toNat
    · rw [if_pos h, if_pos (by omega)]
    · rw [if_neg h, if_neg (by omega)]
  rw [hr', corruptAll, h1]
  dsimp only
  rw [corruptAll_rest t _ _ _ (by omega), hr']
  congr 1
  · apply List.map_congr_left
    intro j _
    simp
  · apply List.map_congr_left
    intro d hd
    have := (List.mem_range'_1.1 hd).1
    apply List.map_congr_left
    intro j _
    rw [if_neg (by omega)]

/-! ## The complaints -/

theorem addFails_skip (n t index : UInt8) (hn : n.toNat ≤ 254) (fails : List UInt8) (len : UInt8) (total : ℕ)
    (h : (t.toNat : ℤ) - index.toNat ≤ total) : ∀ (fuel : ℕ) (i : UInt8), i.toNat ≤ n.toNat + 1 → n.toNat + 1 < fuel + i.toNat →
    addFails n t index fuel i fails len total = .ok (fails, len, total)
  | 0, i, hi, hf => by omega
  | fuel + 1, i, hi0, hf => by
    unfold addFails
    split
    · rename_i hi
      rw [UInt8.le_iff_toNat_le] at hi
      rw [if_neg (by omega)]
      have hi1 : (i + 1).toNat = i.toNat + 1 := by
        rw [UInt8.toNat_add]
        exact Nat.mod_eq_of_lt (by show i.toNat + 1 < 256; omega)
      exact addFails_skip n t index hn fails len total h fuel (i + 1) (by omega) (by omega)
    · rfl

theorem known_false (fails : List UInt8) (i : UInt8) : ∀ k j : ℕ, j + k ≤ fails.length →
    (∀ l, j ≤ l → l < j + k → fails[l]? ≠ some i) → known fails i k j = .ok false
  | 0, _, _, _ => rfl
  | k + 1, j, hl, h => by
    have hj : j < fails.length := by omega
    unfold known
    rw [ld_ok hj, C.ok_bind, if_neg (by
      intro e
      exact h j le_rfl (by omega) (by rw [List.getElem?_eq_getElem hj, e]))]
    exact known_false fails i k (j + 1) (by omega) fun l h1 h2 => h l (by omega) (by omega)

/-- The complaints that the first peer has added before it comes to `m + 2`. -/
def accused (m : ℕ) : List UInt8 := (List.range' 2 m).map UInt8.ofNat

theorem accused_length (m : ℕ) : (accused m).length = m := by simp [accused]

theorem ofNat_toNat {a : ℕ} (h : a < 256) : (UInt8.ofNat a).toNat = a := by
  rw [UInt8.toNat_ofNat', Nat.mod_eq_of_lt h]

theorem addFails_one (n t : UInt8) (hn : n.toNat ≤ 254) (ht : t.toNat ≤ n.toNat) : ∀ (d m fuel : ℕ), d + m + 1 = t.toNat →
    n.toNat < fuel + m →
    addFails n t 1 fuel (UInt8.ofNat (m + 2)) (accused m ++ List.replicate (n.toNat - m) 0) (UInt8.ofNat m) m =
      .ok (accused (t.toNat - 1) ++ List.replicate (n.toNat - (t.toNat - 1)) 0, UInt8.ofNat (t.toNat - 1), t.toNat - 1)
  | 0, m, fuel, hd, hf => by
    have e : t.toNat - 1 = m := by omega
    rw [e]
    exact addFails_skip n t 1 hn _ _ _ (by show (t.toNat : ℤ) - 1 ≤ m; omega) fuel _
      (by rw [ofNat_toNat (by omega)]; omega) (by rw [ofNat_toNat (by omega)]; omega)
  | d + 1, m, 0, hd, hf => by omega
  | d + 1, m, fuel + 1, hd, hf => by
    have hm : (UInt8.ofNat m).toNat = m := ofNat_toNat (by omega)
    have hi : (UInt8.ofNat (m + 2)).toNat = m + 2 := ofNat_toNat (by omega)
    have hne : UInt8.ofNat (m + 2) ≠ 1 := by
      intro h; rw [h] at hi; have : (1 : UInt8).toNat = 1 := rfl; omega
    unfold addFails
    rw [if_pos (by rw [UInt8.le_iff_toNat_le, hi]; omega),
      if_pos (by rw [hm]; exact ⟨by show (m : ℤ) < (t.toNat : ℤ) - 1; omega, by omega, hne⟩), hm,
      known_false _ _ m 0 (by rw [List.length_append, accused_length, List.length_replicate]; omega) (by
        intro l _ hl h
        rw [List.getElem?_append_left (by rw [accused_length]; omega), accused, List.getElem?_map,
          List.getElem?_range' (by omega)] at h
        have h := congrArg UInt8.toNat (Option.some.inj h)
        rw [hi, ofNat_toNat (by omega)] at h
        omega), C.ok_bind, if_neg (by decide),
      st_ok (by rw [List.length_append, accused_length, List.length_replicate]; omega), C.ok_bind]
    have e1 : (accused m ++ List.replicate (n.toNat - m) 0).set m (UInt8.ofNat (m + 2)) =
        accused (m + 1) ++ List.replicate (n.toNat - (m + 1)) 0 := by
      rw [List.set_append_right _ _ (by rw [accused_length]), accused_length, Nat.sub_self,
        show n.toNat - m = (n.toNat - (m + 1)) + 1 by omega, List.replicate_succ, List.set_cons_zero, accused, accused,
        List.range'_concat, List.map_append, List.append_assoc]
      simp [Nat.add_comm]
    have e2 : UInt8.ofNat (m + 2) + 1 = UInt8.ofNat (m + 1 + 2) := by
      apply UInt8.toNat_inj.1
      rw [UInt8.toNat_add, hi, ofNat_toNat (by omega)]
      exact Nat.mod_eq_of_lt (by show m + 2 + 1 < 256; omega)
    have e3 : UInt8.ofNat m + 1 = UInt8.ofNat (m + 1) := by
      apply UInt8.toNat_inj.1
      rw [UInt8.toNat_add, hm, ofNat_toNat (by omega)]
      exact Nat.mod_eq_of_lt (by show m + 1 < 256; omega)
    rw [e1, e2, e3]
    exact addFails_one n t hn ht d (m + 1) fuel (by omega) (by omega)

/-- The first pass of the loop of peer 1 skips the peer itself. -/
theorem addFails_first (n t : UInt8) (hn : n.toNat ≤ 254) (ht : t.toNat ≤ n.toNat) (ht1 : 1 ≤ t.toNat) :
    addFails n t 1 257 1 (List.replicate n.toNat 0) 0 0 =
      .ok (accused (t.toNat - 1) ++ List.replicate (n.toNat - (t.toNat - 1)) 0, UInt8.ofNat (t.toNat - 1), t.toNat - 1) := by
  unfold addFails
  rw [if_pos (by rw [UInt8.le_iff_toNat_le]; show 1 ≤ n.toNat; omega), if_neg (by simp)]
  exact addFails_one n t hn ht (t.toNat - 1) 0 256 (by omega) (by omega)

/-- What the honest part of dealer `d` sends to peer `j + 1` in the test build. -/
noncomputable def sent (t : UInt8) (rnd : ℕ → ℕ → B32) (d j : ℕ) : Share :=
  if d = 0 ∧ 2 ≤ j + 1 ∧ j + 1 ≤ t.toNat then flip (Dkg.dealt t.toNat (rnd d) (UInt8.ofNat (j + 1)))
  else Dkg.dealt t.toNat (rnd d) (UInt8.ofNat (j + 1))

/-- The commitments of the dealers. -/
noncomputable def posted (n t : UInt8) (rnd : ℕ → ℕ → B32) : List (List B32) :=
  (List.range n.toNat).map fun d => (List.range t.toNat).map fun k => enc ((rnd d k).val • (base : G))

theorem verify_column (scratch : B32) (n t : UInt8) (rnd : ℕ → ℕ → B32) (hr : ∀ d k, RandomScalar (rnd d k))
    (ht : 1 ≤ t.toNat) (hn : n.toNat ≤ 254) (j : ℕ) (hj : j < n.toNat) :
    ∃ r, Dkg.verifyCommitments G scratch n t (UInt8.ofNat (j + 1)) (posted G n t rnd)
        ((List.range n.toNat).map fun d => sent t rnd d j) (List.replicate n.toNat 0) =
      .ok (r, if 2 ≤ j + 1 ∧ j + 1 ≤ t.toNat then ([1] ++ List.replicate (n.toNat - 1) 0, 1)
        else (List.replicate n.toNat 0, 0)) := by
  classical
  have hself : (UInt8.ofNat (j + 1)).toNat = j + 1 := ofNat_toNat (by omega)
  have hself0 : UInt8.ofNat (j + 1) ≠ 0 := by
    intro h; rw [h] at hself; simp at hself
  have hgetc : ∀ d, d < n.toNat →
      (posted G n t rnd).getD d [] = (List.range t.toNat).map fun k => enc ((rnd d k).val • (base : G)) := by
    intro d hd
    rw [posted, List.getD_eq_getElem?_getD, List.getElem?_map, List.getElem?_range hd]
    rfl
  have hgets : ∀ d, d < n.toNat →
      ((List.range n.toNat).map fun d => sent t rnd d j).getD d ⟨0, zero32⟩ = sent t rnd d j := by
    intro d hd
    rw [List.getD_eq_getElem?_getD, List.getElem?_map, List.getElem?_range hd]
    rfl
  have hver := C24_verify_commitments_partial G scratch n t (UInt8.ofNat (j + 1)) (posted G n t rnd)
    ((List.range n.toNat).map fun d => sent t rnd d j) (List.replicate n.toNat 0)
    ht hn hself0 (by simp [posted]) (by simp) List.length_replicate (by
      intro c hc
      rw [posted, List.mem_map] at hc
      obtain ⟨r, _, rfl⟩ := hc
      simp) (by
      intro d hd _ c hc
      rw [hgetc d hd] at hc
      have := List.mem_of_mem_drop hc
      rw [List.mem_map] at this
      obtain ⟨k, _, rfl⟩ := this
      exact ⟨_, dec_enc _, smul_ne_zero (hr d k).val_ne base_ne⟩)
  have hfilter : ((List.range' 1 n.toNat).filter fun i => i ≠ (UInt8.ofNat (j + 1)).toNat ∧
      ¬ feldmanOk G (UInt8.ofNat (j + 1)) ((posted G n t rnd).getD (i - 1) [])
        (((List.range n.toNat).map fun d => sent t rnd d j).getD (i - 1) ⟨0, zero32⟩)) =
      if 2 ≤ j + 1 ∧ j + 1 ≤ t.toNat then [1] else [] := by
    have hrest : ∀ i, 2 ≤ i → i ≤ n.toNat → ¬ (i ≠ (UInt8.ofNat (j + 1)).toNat ∧
        ¬ feldmanOk G (UInt8.ofNat (j + 1)) ((posted G n t rnd).getD (i - 1) [])
          (((List.range n.toNat).map fun d => sent t rnd d j).getD (i - 1) ⟨0, zero32⟩)) := by
      intro i h1 h2 h3
      apply h3.2
      rw [hgetc (i - 1) (by omega), hgets (i - 1) (by omega), sent, if_neg (by omega)]
      exact honest_feldman_t G _ _ _
    have hsplit : List.range' 1 n.toNat = 1 :: List.range' 2 (n.toNat - 1) := by
      obtain ⟨m, hm⟩ : ∃ m, n.toNat = m + 1 := ⟨n.toNat - 1, by omega⟩
      rw [hm]
      rfl
    rw [hsplit, List.filter_cons]
    have htail : (List.range' 2 (n.toNat - 1)).filter (fun i => i ≠ (UInt8.ofNat (j + 1)).toNat ∧
        ¬ feldmanOk G (UInt8.ofNat (j + 1)) ((posted G n t rnd).getD (i - 1) [])
          (((List.range n.toNat).map fun d => sent t rnd d j).getD (i - 1) ⟨0, zero32⟩)) = [] := by
      rw [List.filter_eq_nil_iff]
      intro i hi
      rw [List.mem_range'_1] at hi
      simpa only [decide_eq_true_eq] using hrest i hi.1 (by omega)
    rw [htail]
    by_cases hc : 2 ≤ j + 1 ∧ j + 1 ≤ t.toNat
    · rw [if_pos hc, if_pos]
      rw [decide_eq_true_eq, hself, show (1 : ℕ) - 1 = 0 from rfl, hgetc 0 (by omega), hgets 0 (by omega), sent,
        if_pos ⟨rfl, hc⟩]
      exact ⟨by omega, (C101_rejected G _ _ _).2⟩
    · rw [if_neg hc, if_neg]
      rw [decide_eq_true_eq, hself, show (1 : ℕ) - 1 = 0 from rfl, hgetc 0 (by omega), hgets 0 (by omega), sent,
        if_neg (fun h => hc h.2)]
      exact fun h => h.2 (honest_feldman_t G _ _ _)
  dsimp only at hver
  rw [hfilter] at hver
  by_cases hc : 2 ≤ j + 1 ∧ j + 1 ≤ t.toNat
  · rw [if_pos hc] at hver ⊢
    refine ⟨1, hver.trans ?_⟩
    rw [List.drop_replicate]
    rfl
  · rw [if_neg hc] at hver ⊢
    exact ⟨0, hver⟩

/-- The complaints of peer `j + 1`. -/
def complaintsOf (t : UInt8) (j : ℕ) : List UInt8 :=
  if j = 0 then (List.range' 2 (t.toNat - 1)).map UInt8.ofNat
  else if j + 1 ≤ t.toNat then [1] else []

theorem complain_rest (scratch : B32) (n t : UInt8) (rnd : ℕ → ℕ → B32) (hr : ∀ d k, RandomScalar (rnd d k))
    (ht : 1 ≤ t.toNat) (hn : n.toNat ≤ 254) (total : ℕ) (htot : t.toNat ≤ total + 1) : ∀ m j : ℕ, 1 ≤ j → j + m ≤ n.toNat →
    complain G scratch n t (posted G n t rnd) (UInt8.ofNat (j + 1))
      ((List.range' j m).map fun j => (List.range n.toNat).map fun d => sent t rnd d j) total =
      .ok ((List.range' j m).map (complaintsOf t))
  | 0, _, _, _ => rfl
  | m + 1, j, h1, h2 => by
    have hself : (UInt8.ofNat (j + 1)).toNat = j + 1 := ofNat_toNat (by omega)
    have e2 : UInt8.ofNat (j + 1) + 1 = UInt8.ofNat (j + 1 + 1) := by
      apply UInt8.toNat_inj.1
      rw [UInt8.toNat_add, hself, ofNat_toNat (by omega)]
      exact Nat.mod_eq_of_lt (by show j + 1 + 1 < 256; omega)
    obtain ⟨r, hv⟩ := verify_column G scratch n t rnd hr ht hn j (by omega)
    rw [List.range'_succ, List.map_cons, List.map_cons]
    unfold complain
    rw [hv, C.ok_bind]
    dsimp only
    rw [addFails_skip n t _ hn _ _ total (by rw [hself]; push_cast; omega) 257 1 (by show 1 ≤ _; omega) (by omega), C.ok_bind, e2]
    dsimp only
    rw [complain_rest scratch n t rnd hr ht hn total htot m (j + 1) (by omega) (by omega), C.ok_bind]
    congr 2
    have ec : complaintsOf t j = if j + 1 ≤ t.toNat then [1] else [] := if_neg (by omega)
    rw [ec]
    by_cases hc : j + 1 ≤ t.toNat
    · rw [if_pos ⟨by omega, hc⟩, if_pos hc]
      rfl
    · rw [if_neg (fun h => hc h.2), if_neg hc]
      rfl

/-- **C101, the complaints.** For all scalars that libsodium can draw, all numbers of peers up to 254 and all thresholds
`2 ≤ t ≤ n`: in the test build nothing is read or written outside of the buffers, peer 1 accuses the peers 2, …, `t`, whose
shares are right, each of these accuses peer 1, and the other peers accuse nobody. -/
theorem C101_complaints (scratch : B32) (n t : UInt8) (rnd : ℕ → ℕ → B32) (hr : ∀ d k, RandomScalar (rnd d k))
    (ht : 2 ≤ t.toNat) (htn : t.toNat ≤ n.toNat) (hn : n.toNat ≤ 254) :
    let rows := corruptAll t 1 ((List.range n.toNat).map fun d => (List.range n.toNat).map fun j =>
      Dkg.dealt t.toNat (rnd d) (UInt8.ofNat (j + 1))) 0
    complain G scratch n t ((List.range n.toNat).map fun d => (List.range t.toNat).map fun k => enc ((rnd d k).val • (base : G)))
        1 ((List.range n.toNat).map (column rows)) 0 =
      .ok ((List.range n.toNat).map fun j =>
        if j = 0 then (List.range' 2 (t.toNat - 1)).map UInt8.ofNat else if j + 1 ≤ t.toNat then [1] else []) := by
  intro rows
  have hrows : rows = (List.range n.toNat).map fun d => (List.range n.toNat).map fun j => sent t rnd d j :=
    C101_altered n.toNat t (by omega) htn fun d j => Dkg.dealt t.toNat (rnd d) (UInt8.ofNat (j + 1))
  have hcol : (List.range n.toNat).map (column rows) =
      (List.range n.toNat).map fun j => (List.range n.toNat).map fun d => sent t rnd d j := by
    apply List.map_congr_left
    intro j hj
    rw [column, hrows, List.map_map]
    apply List.map_congr_left
    intro d _
    show ((List.range n.toNat).map fun j => sent t rnd d j).getD j _ = _
    rw [List.getD_eq_getElem?_getD, List.getElem?_map, List.getElem?_range (List.mem_range.1 hj)]
    rfl
  rw [hcol]
  obtain ⟨r, hv⟩ := verify_column G scratch n t rnd hr (by omega) hn 0 (by omega)
  rw [if_neg (by omega)] at hv
  have hsplit : List.range n.toNat = 0 :: List.range' 1 (n.toNat - 1) := by
    obtain ⟨m, hm⟩ : ∃ m, n.toNat = m + 1 := ⟨n.toNat - 1, by omega⟩
    rw [hm, List.range_eq_range']
    rfl
  show complain G scratch n t (posted G n t rnd) 1 _ 0 = _
  have hs : ((List.range n.toNat).map fun j => (List.range n.toNat).map fun d => sent t rnd d j) =
      ((List.range n.toNat).map fun d => sent t rnd d 0) ::
        (List.range' 1 (n.toNat - 1)).map fun j => (List.range n.toNat).map fun d => sent t rnd d j := by
    conv_lhs => rw [hsplit]
    rw [List.map_cons, ← hsplit]
  rw [hs]
  unfold complain
  have hv' : Dkg.verifyCommitments G scratch n t 1 (posted G n t rnd)
      ((List.range n.toNat).map fun d => sent t rnd d 0) (List.replicate n.toNat 0) =
      .ok (r, List.replicate n.toNat 0, 0) := hv
  rw [hv', C.ok_bind]
  dsimp only
  rw [addFails_first n t hn htn (by omega), C.ok_bind]
  dsimp only
  have hrest := complain_rest G scratch n t rnd hr (by omega) hn (t.toNat - 1) (by omega) (n.toNat - 1) 1 le_rfl (by omega)
  have e11 : (1 : UInt8) + 1 = UInt8.ofNat (1 + 1) := rfl
  rw [e11, hrest, C.ok_bind, hsplit, List.map_cons, if_pos rfl, ofNat_toNat (by omega)]
  congr 2
  rw [List.take_append_of_le_length (by rw [accused_length]), List.take_of_length_le (by rw [accused_length])]
  rfl

end

/-! ## Concrete values -/

section Toy
attribute [local instance] Ristretto.toy

/-- Coefficients that libsodium can draw. -/
noncomputable def corruptRnd (d k : ℕ) : B32 := B32.ofZ (((d + k) % 7 + 1 : ℕ) : ZMod L)

theorem corruptRnd_random (d k : ℕ) : RandomScalar (corruptRnd d k) :=
  Toy.randomScalar _ (by omega) (lt_of_lt_of_le (by omega : (d + k) % 7 + 1 < 8) (by norm_num))

/-- The hypotheses hold for 5 peers with threshold 3. -/
example : complain (ZMod L) zero32 5 3 (posted (ZMod L) 5 3 corruptRnd) 1
      ((List.range 5).map (column (corruptAll 3 1 ((List.range 5).map fun d => (List.range 5).map fun j =>
        Dkg.dealt 3 (corruptRnd d) (UInt8.ofNat (j + 1))) 0))) 0 =
    .ok [[2, 3], [1], [1], [], []] :=
  C101_complaints (ZMod L) zero32 5 3 corruptRnd corruptRnd_random (by decide) (by decide) (by decide)

/-- A share with value 1 becomes one with value 65281. -/
example : (flip ⟨2, B32.ofByte 1⟩).value.toNat = 65281 := by decide +kernel

end Toy

end Verif.Props
