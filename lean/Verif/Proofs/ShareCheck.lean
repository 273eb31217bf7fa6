import Verif.Model.ShareCheck
import Verif.Props.Tests

/-! Lemmas about the check of the shares in tests/tp-dkg.c. -/

set_option linter.unusedSectionVars false

namespace Verif.Tests

open Ristretto Spec Polynomial Verif.Toprf

theorem div_lt {r m : ℕ} (hr : r ≤ randMax) (hm : 0 < m) : r / (randMax / m + 1) < m := by
  rw [Nat.div_lt_iff_lt_mul (Nat.succ_pos _)]
  have h1 := Nat.div_add_mod randMax m
  have h2 := Nat.mod_lt randMax hm
  calc r ≤ randMax := hr
    _ < m * (randMax / m) + m := by omega
    _ = m * (randMax / m + 1) := by ring

theorem shuffleStep_eq {n r : ℕ} {a : List UInt8} {i : ℕ} (hn : n ≤ a.length) (hi : i < n) (hr : r ≤ randMax) :
    ∃ (j : ℕ) (hj : j < a.length) (hi' : i < a.length), j = i + r / (randMax / (n - i) + 1) ∧
      shuffleStep n r a i = .ok ((a.set j a[i]).set i a[j]) := by
  have h := div_lt (m := n - i) hr (by omega)
  refine ⟨i + r / (randMax / (n - i) + 1), by omega, by omega, rfl, ?_⟩
  show (do
    let t ← ld a (i + r / (randMax / (n - i) + 1))
    let u ← ld a i
    let array ← st a (i + r / (randMax / (n - i) + 1)) u
    st array i t) = _
  rw [ld_ok (show i + r / (randMax / (n - i) + 1) < a.length by omega), C.ok_bind, ld_ok (show i < a.length by omega),
    C.ok_bind, st_ok (by omega), C.ok_bind, st_ok (by rw [List.length_set]; omega)]

theorem swap_perm (a : List UInt8) (i j : ℕ) (hi : i < a.length) (hj : j < a.length) :
    ((a.set j a[i]).set i a[j]).Perm a := by
  exact List.set_set_perm hj hi

theorem shuffleLoop_perm {n : ℕ} {rand : ℕ → ℕ} (hr : ∀ i, rand i ≤ randMax) : ∀ (m i : ℕ) (a : List UInt8),
    n ≤ a.length → i + m ≤ n → ∃ b, shuffleLoop n rand m i a = .ok b ∧ b.Perm a
  | 0, _, a, _, _ => ⟨a, rfl, .refl _⟩
  | m + 1, i, a, hn, hm => by
    obtain ⟨j, hj, hi', _, e⟩ := shuffleStep_eq hn (show i < n by omega) (hr i)
    obtain ⟨b, h1, h2⟩ := shuffleLoop_perm hr m (i + 1) ((a.set j a[i]).set i a[j]) (by simpa using hn) (by omega)
    refine ⟨b, ?_, h2.trans (swap_perm a i j hi' hj)⟩
    rw [shuffleLoop, e, C.ok_bind, h1]

theorem shuffle_perm {n : ℕ} {rand : ℕ → ℕ} (hr : ∀ i, rand i ≤ randMax) {a : List UInt8} (hn : n ≤ a.length) :
    ∃ b, shuffle n rand a = .ok b ∧ b.Perm a := by
  unfold shuffle
  split
  · exact ⟨a, rfl, .refl _⟩
  · exact shuffleLoop_perm hr _ _ _ hn (by omega)

theorem shuffleStep_zero {n : ℕ} {a : List UInt8} {i : ℕ} (hi : i < a.length) : shuffleStep n 0 a i = .ok a := by
  show (do
    let t ← ld a (i + 0 / (randMax / (n - i) + 1))
    let u ← ld a i
    let array ← st a (i + 0 / (randMax / (n - i) + 1)) u
    st array i t) = _
  rw [Nat.zero_div, Nat.add_zero, ld_ok hi, C.ok_bind, C.ok_bind, st_ok hi, C.ok_bind,
    st_ok (by rw [List.length_set]; exact hi)]
  simp

theorem shuffleLoop_zero {n : ℕ} {rand : ℕ → ℕ} : ∀ (m i : ℕ) (a : List UInt8), (∀ k, i ≤ k → rand k = 0) →
    i + m ≤ a.length → shuffleLoop n rand m i a = .ok a
  | 0, _, _, _, _ => rfl
  | m + 1, i, a, h, hm => by
    rw [shuffleLoop, h i le_rfl, shuffleStep_zero (by omega), C.ok_bind,
      shuffleLoop_zero m (i + 1) a (fun k hk => h k (by omega)) (by omega)]

theorem shuffle_zero {n : ℕ} {a : List UInt8} (hn : n ≤ a.length) : shuffle n (fun _ => 0) a = .ok a := by
  unfold shuffle
  split
  · rfl
  · exact shuffleLoop_zero _ _ _ (fun _ _ => rfl) (by omega)

theorem shuffleLoop_swap {n : ℕ} {rand : ℕ → ℕ} {p q : ℕ} (h0 : ∀ k, k ≠ p → rand k = 0) (hp : rand p ≤ randMax)
    (hq : p + rand p / (randMax / (n - p) + 1) = q) : ∀ (m i : ℕ) (a : List UInt8) (hp' : p < a.length) (hq' : q < a.length),
    n ≤ a.length → i + m ≤ n → i ≤ p → p < i + m →
    shuffleLoop n rand m i a = .ok ((a.set q a[p]).set p a[q])
  | 0, i, a, _, _, _, _, _, _ => by omega
  | m + 1, i, a, hp', hq', hn, hm, hi, hpm => by
    rw [shuffleLoop]
    by_cases hip : i = p
    · subst hip
      obtain ⟨j, hj, hi', hjq, e⟩ := shuffleStep_eq hn (show i < n by omega) hp
      rw [hq] at hjq
      subst hjq
      rw [e, C.ok_bind, shuffleLoop_zero m (i + 1) _ (fun k hk => h0 k (by omega)) (by simp; omega)]
    · rw [h0 i hip, shuffleStep_zero (by omega), C.ok_bind,
        shuffleLoop_swap h0 hp hq m (i + 1) a hp' hq' hn (by omega) (by omega) (by omega)]

/-- The shuffle can exchange any position `p` with any later one `q` and nothing else. -/
theorem shuffle_swap {n p q : ℕ} (hn : n ≤ 255) (hpq : p < q) (hqn : q < n) :
    ∃ rand : ℕ → ℕ, (∀ i, rand i ≤ randMax) ∧ ∀ (a : List UInt8) (ha : a.length = n),
      shuffle n rand a = .ok ((a.set q (a[p]'(by omega))).set p (a[q]'(by omega))) := by
  set m := n - p with hm
  set u := randMax / m with hu
  have hmu : m ≤ u := by
    rw [hu, Nat.le_div_iff_mul_le (by omega)]
    have : m * m ≤ 255 * 255 := Nat.mul_le_mul (by omega) (by omega)
    unfold randMax
    omega
  have hbound : (q - p) * (u + 1) ≤ randMax := by
    have h1 : (q - p) * (u + 1) ≤ (m - 1) * (u + 1) := Nat.mul_le_mul_right _ (by omega)
    have h2 : m * u ≤ randMax := Nat.mul_div_le _ _
    have h3 : (m - 1) * (u + 1) + u + 1 = m * u + m := by
      have : m = (m - 1) + 1 := by omega
      conv_rhs => rw [this]
      ring
    omega
  refine ⟨fun i => if i = p then (q - p) * (u + 1) else 0, fun i => ?_, fun a ha => ?_⟩
  · dsimp only
    split
    · exact hbound
    · exact Nat.zero_le _
  · unfold shuffle
    rw [if_neg (by omega)]
    refine shuffleLoop_swap (fun k hk => if_neg hk) ?_ ?_ _ _ a (by omega) (by omega) (by omega) (by omega) (by omega)
      (by omega)
    · simpa using hbound
    · simp only [if_pos]
      rw [← hm, ← hu, Nat.mul_div_cancel _ (Nat.succ_pos _)]
      omega

section
variable (G : Type) [Ristretto G]

/-- The shares at the given positions. -/
def pick (shares : List Share) (pos : List UInt8) : List Share := pos.map fun k => shares.getD k.toNat ⟨0, zero32⟩

theorem respond_eq (shares : List Share) (indexes : List UInt8) (h : ∀ k ∈ indexes, k.toNat < shares.length) :
    ∀ m i, i + m ≤ indexes.length →
      respond G shares indexes m i = .ok ((pick shares ((indexes.drop i).take m)).map (topart G))
  | 0, i, _ => by simp [respond, pick]
  | m + 1, i, hm => by
    have hi : i < indexes.length := by omega
    have hk := h indexes[i] (List.getElem_mem hi)
    rw [respond, ld_ok hi, C.ok_bind, ld_ok hk, C.ok_bind, respond_eq shares indexes h m (i + 1) (by omega), C.ok_bind,
      List.drop_eq_getElem_cons hi, List.take_succ_cons]
    simp [pick, List.getD_eq_getElem?_getD, hk]

/-- The scalar that the curve arithmetic makes of a share. -/
noncomputable def scalarOf (s : Share) : ZMod L := maskedVal s.value

theorem interp (l : List Share) (hn : (l.map (·.index)).Nodup) :
    ∃ f : (ZMod L)[X], f.degree < l.length ∧ ∀ s ∈ l, f.eval (point s.index) = scalarOf s := by
  classical
  let val : UInt8 → ZMod L := fun i => match l.find? (fun s => s.index = i) with
    | some s => scalarOf s
    | none => 0
  have hinj : Set.InjOn point (↑(l.map (·.index)).toFinset : Set UInt8) := fun a _ b _ h => point_inj h
  refine ⟨Lagrange.interpolate (l.map (·.index)).toFinset point val, ?_, fun s hs => ?_⟩
  · have := Lagrange.degree_interpolate_lt val hinj
    rw [List.toFinset_card_of_nodup hn, List.length_map] at this
    exact this
  · rw [Lagrange.eval_interpolate_at_node val hinj (by simpa using ⟨s, hs, rfl⟩)]
    have hfind : l.find? (fun x => x.index = s.index) = some s := by
      cases hf : l.find? (fun x => x.index = s.index) with
      | none =>
        rw [List.find?_eq_none] at hf
        exact absurd (by simp) (hf s hs)
      | some x =>
        have h1 := List.mem_of_find?_eq_some hf
        have h2 := List.find?_some hf
        simp only [decide_eq_true_eq] at h2
        rw [List.inj_on_of_nodup_map hn h1 hs h2]
    show (match l.find? (fun x => x.index = s.index) with | some s => scalarOf s | none => 0) = _
    rw [hfind]

/-- Combining shares in the exponent: it succeeds if and only if no scalar is 0, and then the result is the value at 0
of the polynomial through the shares. -/
theorem combine_eq (junk : UInt8) (scratch : B32) (l : List Share) (hne : l ≠ []) (hn : (l.map (·.index)).Nodup)
    (h0 : 0 ∉ l.map (·.index)) (f : (ZMod L)[X]) (hf : f.degree < l.length)
    (he : ∀ s ∈ l, f.eval (point s.index) = scalarOf s) :
    (∀ s ∈ l, scalarOf s ≠ 0) ∧
      thresholdmult G junk scratch (l.map (topart G)) = .ok (0, enc (f.eval 0 • (base : G))) ∨
    (∃ s ∈ l, scalarOf s = 0) ∧ ∃ v, thresholdmult G junk scratch (l.map (topart G)) = .ok (1, v) := by
  by_cases hz : ∀ s ∈ l, scalarOf s ≠ 0
  · left
    refine ⟨hz, Props.thresholdmult_recovers G junk scratch _ f base (by simpa using hne) ?_ ?_ (by simpa using hf) ?_⟩
    · simpa [List.map_map, Function.comp_def, topart] using hn
    · simpa [List.map_map, Function.comp_def, topart] using h0
    · intro r hr
      obtain ⟨s, hs, rfl⟩ := List.mem_map.1 hr
      simp only [topart, scalarmultBase]
      rw [he s hs]
      exact ⟨rfl, smul_ne_zero (hz s hs) base_ne⟩
  · right
    simp only [not_forall, not_not] at hz
    obtain ⟨s, hs, h⟩ := hz
    refine ⟨⟨s, hs, h⟩, ?_⟩
    refine Props.C15_thresholdmult_rejects G junk scratch _ (topart G s) (List.mem_map_of_mem hs) (Or.inr ?_)
    simp only [topart, scalarmultBase]
    rw [show maskedVal s.value = 0 from h, zero_smul, dec_enc]

end

end Verif.Tests
