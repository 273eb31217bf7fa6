import Verif.Model.PyDkg
import Verif.Proofs.PyTests
import Verif.Proofs.ShareCheck

/-!
# What the functions of the wrapper return to `test_raw_dkg`
-/

set_option linter.unusedSectionVars false

namespace Verif.PyTests

open Ristretto Verif.Py Verif.Props Spec Polynomial Verif.Tests

variable {α β : Type}

theorem bind_ret_iff {m : Run α} {k : α → Run β} {b : β} : (m >>= k) = .ret b ↔ ∃ a, m = .ret a ∧ k a = .ret b := by
  cases m with
  | ret a =>
    rw [ret_bind]
    exact ⟨fun h => ⟨a, rfl, h⟩, fun ⟨_, h1, h2⟩ => by cases h1; exact h2⟩
  | raised => exact ⟨fun h => (by cases h), fun ⟨_, h, _⟩ => (by cases h)⟩
  | failed => exact ⟨fun h => (by cases h), fun ⟨_, h, _⟩ => (by cases h)⟩
  | undef => exact ⟨fun h => (by cases h), fun ⟨_, h, _⟩ => (by cases h)⟩

theorem assertEqual_ret [DecidableEq α] {a b : α} : assertEqual a b = .ret () ↔ a = b := by
  unfold assertEqual
  split
  · exact ⟨fun _ => ‹_›, fun _ => rfl⟩
  · exact ⟨fun h => (by cases h), fun h => absurd h ‹_›⟩

theorem assertEqual_self [DecidableEq α] (a : α) : assertEqual a a = .ret () := if_pos rfl

/-! ## Reading the buffers -/

theorem mapC_eq {f : α → C β} {g : α → β} : ∀ l : List α, (∀ a ∈ l, f a = .ok (g a)) → mapC f l = .ok (l.map g)
  | [], _ => rfl
  | a :: l, h => by
    rw [mapC, h a (by simp), C.ok_bind, mapC_eq l (fun a ha => h a (by simp [ha])), C.ok_bind, List.map_cons]

theorem b32At_skip (v : B32) (rest : Bytes) (off : ℕ) : b32At (v.toList ++ rest) (32 + off) = b32At rest off := by
  have e : rd (v.toList ++ rest) (32 + off) 32 = rd rest off 32 := by
    unfold rd
    have hl : (v.toList ++ rest).length = 32 + rest.length := by simp
    rw [hl, ← List.drop_drop, List.drop_left' (by simp)]
    by_cases h : off + 32 ≤ rest.length
    · rw [if_pos h, if_pos (by omega)]
    · rw [if_neg h, if_neg (by omega)]
  unfold b32At
  rw [e]

theorem b32At_flat (rest : Bytes) : ∀ (l : List B32) (i : ℕ), i < l.length →
    b32At ((l.map Vector.toList).flatten ++ rest) (32 * i) = .ok (l.getD i zero32)
  | [], i, h => absurd h (by simp)
  | v :: l, 0, _ => by
    rw [List.map_cons, List.flatten_cons, List.append_assoc, Nat.mul_zero, b32At_zero]
    rfl
  | v :: l, i + 1, h => by
    rw [List.map_cons, List.flatten_cons, List.append_assoc, show 32 * (i + 1) = 32 + 32 * i by ring, b32At_skip,
      b32At_flat rest l i (by simpa using h)]
    rfl

/-- Five rows of three points. -/
theorem rowsAt_flat (g : ℕ → ℕ → B32) (rest : Bytes) :
    rowsAt ((((List.range 5).map fun i => (List.range 3).map (g i)).flatten.map Vector.toList).flatten ++ rest) 5 3 =
      .ok ((List.range 5).map fun i => (List.range 3).map (g i)) := by
  unfold rowsAt
  apply mapC_eq
  intro i hi
  apply mapC_eq
  intro j hj
  rw [List.mem_range] at hi hj
  rw [b32At_flat _ _ _ (by simp [List.range_succ]; omega)]
  have h : i = 0 ∨ i = 1 ∨ i = 2 ∨ i = 3 ∨ i = 4 := by omega
  have h' : j = 0 ∨ j = 1 ∨ j = 2 := by omega
  rcases h with rfl | rfl | rfl | rfl | rfl <;> rcases h' with rfl | rfl | rfl <;> rfl

/-! ## The functions of the wrapper -/

section
variable [Hashes] (G : Type) [Ristretto G] (junk : UInt8) (scratch : B32)

theorem real_start (rnd : ℕ → B32) (hr : ∀ k, RandomScalar (rnd k)) : (realDkg G junk scratch).start rnd 5 3 =
    .ret ((((List.range 3).map fun k => enc ((rnd k).val • (base : G))).map Vector.toList).flatten,
      ((List.range' 1 5).map fun k => Dkg.dealt 3 rnd (UInt8.ofNat k)).map pack) := by
  have hs := Dkg.start_eq G 5 3 rnd (List.replicate 3 zero32) (List.replicate 5 zeroShare) (by decide) (by decide)
    List.length_replicate.ge List.length_replicate.ge (hr 0).1
  rw [List.drop_of_length_le (by rw [List.length_replicate]; decide),
    List.drop_of_length_le (by rw [List.length_replicate]; decide), List.append_nil, List.append_nil] at hs
  have e : (List.range (3 : UInt8).toNat).map (fun k => enc (maskedVal (rnd k) • (base : G))) =
      (List.range 3).map fun k => enc ((rnd k).val • (base : G)) := by
    apply List.map_congr_left
    intro k _
    rw [maskedVal_canonical (hr k).1]
  rw [e] at hs
  show checked (fun p : List B32 × List Share => ((p.1.map Vector.toList).flatten, p.2.map pack)) (Py.dkgStart G true rnd 5 3) = _
  unfold Py.dkgStart
  rw [raiseIf_false (by decide), raiseIf_false (by decide), raiseIf_false (fits (by omega) (by omega)),
    raiseIf_false (fits (by omega) (by omega))]
  have e' : Dkg.start G true (u8 5) (u8 3) rnd (List.replicate (3 : ℤ).toNat zero32) (List.replicate (5 : ℤ).toNat zeroShare) =
      Dkg.start G true 5 3 rnd (List.replicate 3 zero32) (List.replicate 5 zeroShare) := rfl
  rw [e', hs]
  rfl

theorem flatten_packs_length : ∀ l : List Share, (l.map pack).flatten.length = 33 * l.length
  | [] => rfl
  | s :: l => by
    rw [List.map_cons, List.flatten_cons, List.length_append, pack_length, flatten_packs_length l, List.length_cons]
    ring

theorem flatten_b32_length : ∀ l : List B32, (l.map Vector.toList).flatten.length = 32 * l.length
  | [] => rfl
  | s :: l => by
    rw [List.map_cons, List.flatten_cons, List.length_append, flatten_b32_length l, List.length_cons, Vector.length_toList]
    ring

theorem real_verify (g : ℕ → ℕ → B32) (sent : List Share) (h : sent.length = 5) (i : ℤ) (h1 : 1 ≤ i) (h5 : i ≤ 5) :
    (realDkg G junk scratch).verify 5 3 i
        (((List.range 5).map fun i => (List.range 3).map (g i)).flatten.map Vector.toList).flatten (sent.map pack) =
      checked (fun p => p.1.take p.2.toNat) (.reached (Dkg.verifyCommitments G scratch 5 3 (u8 i)
        ((List.range 5).map fun i => (List.range 3).map (g i)) sent (List.replicate 5 0))) := by
  show checked _ (raiseIf _ <| raiseIf _ <| raiseIf _ <| orRaise (some _) fun len => raiseIf _ <| orRaise _ fun b =>
    raiseIf _ <| raiseIf _ <| raiseIf _ <| raiseIf _ <| orRaise (some _) _) = _
  rw [raiseIf_false (by decide), raiseIf_false (by decide), raiseIf_false (by omega), orRaise_some,
    raiseIf_false (by rw [flatten_b32_length]; simp [List.range_succ]), join_packs, orRaise_some,
    raiseIf_false (by rw [flatten_packs_length, h]; decide), raiseIf_false (fits (by decide) (by decide)),
    raiseIf_false (fits (by decide) (by decide)), raiseIf_false (fits (by omega) (by omega)), orRaise_some]
  have e5 : (u8 5).toNat = sent.length := h.symm
  have e3 : (u8 3).toNat = 3 := rfl
  rw [e5, sharesAt_packs, h, e3, rowsAt_flat, C.ok_bind, C.ok_bind]
  rfl

theorem real_finish (sent : List Share) (h : sent.length = 5) (i : ℤ) (h1 : 1 ≤ i) (h5 : i ≤ 5) :
    (realDkg G junk scratch).finish 5 (sent.map pack) i =
      plain pack (.reached (Dkg.finish 5 sent ⟨u8 i, zero32⟩)) := by
  show plain _ (raiseIf _ <| orRaise _ fun b => raiseIf _ <| raiseIf _ <| raiseIf _ _) = _
  rw [raiseIf_false (by omega), join_packs, orRaise_some, raiseIf_false (by rw [flatten_packs_length, h]; decide),
    raiseIf_false (by omega), raiseIf_false (fits (by decide) (by decide))]
  have e5 : (u8 5).toNat = sent.length := h.symm
  rw [e5, sharesAt_packs, C.ok_bind]
  rfl

theorem real_reconstruct (l : List Share) :
    (realDkg G junk scratch).reconstruct (l.map pack) = plain Vector.toList (.reached (Dkg.reconstruct l)) := by
  show plain _ (orRaise _ _) = _
  rw [join_packs, orRaise_some, List.length_map, List.length_map, sharesAt_packs, C.ok_bind]

/-- `dkg_verify_commitments` returns 0 only with an empty list. -/
theorem verifyAll_zero (n t self : UInt8) (cs : List (List B32)) (shares : List Share) :
    ∀ (fuel : ℕ) (i : UInt8) (fails fails' : List UInt8) (len len' : UInt8),
      Dkg.verifyAll G scratch n t self cs shares fuel i fails len = .ok (0, fails', len') → len' = 0
  | 0, _, _, _, _, _, h => by cases h
  | fuel + 1, i, fails, fails', len, len', h => by
    unfold Dkg.verifyAll at h
    split at h
    · split at h
      · exact verifyAll_zero n t self cs shares fuel _ _ _ _ _ h
      split at h
      · cases h
      simp only [C.bind_eq_ok] at h
      obtain ⟨c, -, s, -, r, -, h⟩ := h
      split at h
      · have := C.ok.inj h
        simp only [Prod.mk.injEq] at this
        exact absurd this.1 (by decide)
      split at h
      · exact verifyAll_zero n t self cs shares fuel _ _ _ _ _ h
      · simp only [C.bind_eq_ok] at h
        obtain ⟨f, -, h⟩ := h
        exact verifyAll_zero n t self cs shares fuel _ _ _ _ _ h
    · have := C.ok.inj h
      simp only [Prod.mk.injEq] at this
      obtain ⟨h1, -, rfl⟩ := this
      by_contra hc
      rw [if_pos hc] at h1
      exact absurd h1 (by decide)

theorem checked_ret {f : α → β} {x : Res (Int × α)} {b : β} (h : checked f x = .ret b) :
    ∃ a, x = .reached (.ok (0, a)) ∧ f a = b := by
  unfold checked at h
  split at h
  · cases h
  · split at h
    · cases h
    · rename_i r a hr
      obtain rfl : r = 0 := by simpa using hr
      cases h
      exact ⟨a, rfl, rfl⟩
  · cases h

/-! ## The loops of the test -/

theorem deal_eq (lib : DkgLib) (c : (ℕ → B32) → Bytes) (s : (ℕ → B32) → ℕ → Bytes) :
    ∀ (l : List (ℕ → B32)) (cs : List Bytes) (b1 b2 b3 b4 b5 : List Bytes),
      (∀ r ∈ l, lib.start r 5 3 = .ret (c r, [s r 1, s r 2, s r 3, s r 4, s r 5])) →
      deal lib l cs [b1, b2, b3, b4, b5] = .ret (cs ++ l.map c, [b1 ++ l.map (s · 1), b2 ++ l.map (s · 2),
        b3 ++ l.map (s · 3), b4 ++ l.map (s · 4), b5 ++ l.map (s · 5)])
  | [], cs, _, _, _, _, _, _ => by simp [deal]
  | r :: l, cs, b1, b2, b3, b4, b5, h => by
    unfold deal
    rw [h r (by simp), ret_bind]
    show deal lib l (cs ++ [c r]) [b1 ++ [s r 1], b2 ++ [s r 2], b3 ++ [s r 3], b4 ++ [s r 4], b5 ++ [s r 5]] = _
    rw [deal_eq lib c s l _ _ _ _ _ _ (fun r hr => h r (by simp [hr]))]
    simp

theorem receive_eq (lib : DkgLib) (C : Bytes) (box : ℕ → List Bytes) (x : ℕ → Bytes) : ∀ m i : ℕ,
    (∀ j, i ≤ j → j < i + m → lib.verify 5 3 ((j : ℤ) + 1) C (box (j + 1)) = .ret [] ∧
      lib.finish 5 (box (j + 1)) ((j : ℤ) + 1) = .ret (x (j + 1))) →
    receive lib C ((List.range' (i + 1) m).map box) i = .ret ((List.range' (i + 1) m).map x)
  | 0, _, _ => rfl
  | m + 1, i, h => by
    obtain ⟨h1, h2⟩ := h i le_rfl (by omega)
    rw [List.range'_succ, List.map_cons, List.map_cons, receive, h1, ret_bind]
    simp only [List.length_nil, gt_iff_lt, lt_irrefl, if_false]
    have ih := receive_eq lib C box x m (i + 1) (fun j a b => h j (by omega) (by omega))
    rw [Nat.cast_add, Nat.cast_one] at ih
    rw [h2, ret_bind, ih, ret_bind]

end

/-! ## The check of the shares -/

section
variable (G : Type) [Ristretto G]

/-- The share of shareholder `i`. -/
noncomputable def share (x : ℕ → ZMod L) (i : ℕ) : Share := ⟨UInt8.ofNat i, B32.ofZ (x i)⟩

/-- The shares of the five shareholders, as bytes. -/
noncomputable def five (x : ℕ → ZMod L) : List Bytes := ((List.range' 1 5).map (share x)).map pack

open Classical in
theorem sodiumBase_eq (z : ZMod L) :
    sodiumBase G (B32.ofZ z).toList = if z = 0 then .raised else .ret (enc (z • (base : G))).toList := by
  unfold sodiumBase
  rw [if_neg (by simp), toB32_toList]
  simp only [scalarmultBase, maskedVal_ofZ]
  by_cases h : z = 0
  · rw [if_pos h, h, zero_smul, enc_zero, if_pos rfl, if_pos (by decide)]
  · have h' : enc (z • (base : G)) ≠ zero32 := fun hc => smul_ne_zero h base_ne (enc_eq_zero.1 hc)
    simp only [h, h', if_false, ne_eq, not_true_eq_false]

theorem scalarOf_share (x : ℕ → ZMod L) (i : ℕ) : scalarOf (share x i) = x i := maskedVal_ofZ _

theorem five_get (x : ℕ → ZMod L) (i : ℕ) (h : i < 5) : (five x)[i]? = some (pack (share x (i + 1))) := by
  unfold five
  rw [List.getElem?_map, List.getElem?_map, List.getElem?_range' (by omega)]
  simp [Nat.add_comm]

theorem powers_ret (x : ℕ → ZMod L) : ∀ idxs : List ℕ, (∀ i ∈ idxs, i < 5 ∧ x (i + 1) ≠ 0) →
    powers G (five x) idxs = .ret ((idxs.map fun i => topart G (share x (i + 1))).map pack)
  | [], _ => rfl
  | i :: l, h => by
    obtain ⟨h5, hx⟩ := h i (by simp)
    unfold powers
    rw [five_get x i h5]
    show (sodiumBase G (B32.ofZ (x (i + 1))).toList >>= _) = _
    rw [sodiumBase_eq, if_neg hx, ret_bind, powers_ret x l (fun i hi => h i (by simp [hi])), ret_bind, List.map_cons,
      List.map_cons]
    congr 2
    simp only [pack, topart, share, scalarmultBase, maskedVal_ofZ]

theorem powers_raised (x : ℕ → ZMod L) : ∀ idxs : List ℕ, (∀ i ∈ idxs, i < 5) → (∃ i ∈ idxs, x (i + 1) = 0) →
    powers G (five x) idxs = .raised
  | [], _, h => by simp at h
  | i :: l, h, h0 => by
    unfold powers
    rw [five_get x i (h i (by simp))]
    show (sodiumBase G (B32.ofZ (x (i + 1))).toList >>= _) = _
    rw [sodiumBase_eq]
    by_cases hx : x (i + 1) = 0
    · rw [if_pos hx, raised_bind]
    · have : ∃ i ∈ l, x (i + 1) = 0 := by
        obtain ⟨j, hj, h0⟩ := h0
        rcases List.mem_cons.1 hj with rfl | hj
        · exact absurd h0 hx
        · exact ⟨j, hj, h0⟩
      rw [if_neg hx, ret_bind, powers_raised x l (fun i hi => h i (by simp [hi])) this, raised_bind]

theorem idx_inj {a b : ℕ} (ha : a < 5) (hb : b < 5) (h : UInt8.ofNat (a + 1) = UInt8.ofNat (b + 1)) : a = b := by
  have := congrArg UInt8.toNat h
  simp only [UInt8.toNat_ofNat'] at this
  omega

theorem point_idx (i : ℕ) (h : i < 6) : point (UInt8.ofNat i) = (i : ZMod L) := by
  rw [point, UInt8.toNat_ofNat', Nat.mod_eq_of_lt (by norm_num; omega)]

variable [Hashes] (junk : UInt8) (scratch : B32)

/-- Three different shares, none of which is 0, are combined to the value at 0 of the polynomial through them. -/
theorem mult_ret (x : ℕ → ZMod L) (idxs : List ℕ) (hl : idxs.length = 3) (hn : idxs.Nodup)
    (h : ∀ i ∈ idxs, i < 5 ∧ x (i + 1) ≠ 0) (f : (ZMod L)[X]) (hf : f.degree < (3 : ℕ))
    (he : ∀ i ∈ idxs, f.eval ((i + 1 : ℕ) : ZMod L) = x (i + 1)) :
    (realDkg G junk scratch).thresholdmult ((idxs.map fun i => topart G (share x (i + 1))).map pack) =
      .ret (enc (f.eval 0 • (base : G))).toList := by
  have key := combine_eq G junk scratch (idxs.map fun i => share x (i + 1)) (by
      intro hc
      have := congrArg List.length hc
      rw [List.length_map, hl] at this
      simp at this) (by
      rw [List.map_map, List.nodup_map_iff_inj_on hn]
      exact fun a ha b hb hab => idx_inj (h a ha).1 (h b hb).1 hab) (by
      simp only [List.map_map, List.mem_map, Function.comp, share, not_exists, not_and]
      intro a ha hc
      have := congrArg UInt8.toNat hc
      have h5 := (h a ha).1
      simp only [UInt8.toNat_ofNat', UInt8.toNat_zero] at this
      omega) f (by rw [List.length_map, hl]; exact hf) (by
      intro s hs
      obtain ⟨i, hi, rfl⟩ := List.mem_map.1 hs
      rw [scalarOf_share, ← he i hi]
      simp only [share]
      rw [point_idx _ (by have := (h i hi).1; omega)])
  rcases key with ⟨-, key⟩ | ⟨⟨s, hs, h0⟩, -⟩
  · rw [List.map_map] at key
    show (real G junk scratch).thresholdmult _ = _
    rw [real_thresholdmult]
    have e : (idxs.map fun i => topart G (share x (i + 1))) = idxs.map (topart G ∘ fun i => share x (i + 1)) := rfl
    rw [e, key]
    rfl
  · obtain ⟨i, hi, rfl⟩ := List.mem_map.1 hs
    rw [scalarOf_share] at h0
    exact absurd h0 (h i hi).2

/-- A polynomial through three of the shares. -/
theorem interp3 (x : ℕ → ZMod L) (idxs : List ℕ) (hl : idxs.length = 3) (hn : idxs.Nodup) (h : ∀ i ∈ idxs, i < 5) :
    ∃ f : (ZMod L)[X], f.degree < (3 : ℕ) ∧ ∀ i ∈ idxs, f.eval ((i + 1 : ℕ) : ZMod L) = x (i + 1) := by
  obtain ⟨f, hf, he⟩ := interp (idxs.map fun i => share x (i + 1)) (by
    rw [List.map_map, List.nodup_map_iff_inj_on hn]
    exact fun a ha b hb hab => idx_inj (h a ha) (h b hb) hab)
  refine ⟨f, by rw [List.length_map, hl] at hf; exact hf, fun i hi => ?_⟩
  have := he _ (List.mem_map_of_mem hi)
  rw [scalarOf_share] at this
  rw [← this]
  simp only [share]
  rw [point_idx _ (by have := h i hi; omega)]

theorem reconstruct_ret (x : ℕ → ZMod L) (f : (ZMod L)[X]) (hf : f.degree < (3 : ℕ))
    (he : ∀ i ∈ [0, 1, 2], f.eval ((i + 1 : ℕ) : ZMod L) = x (i + 1)) :
    (realDkg G junk scratch).reconstruct ((five x).take 3) = .ret (B32.ofZ (f.eval 0)).toList := by
  have e : (five x).take 3 = [share x 1, share x 2, share x 3].map pack := rfl
  rw [e, real_reconstruct, Dkg.reconstruct_recovers f [share x 1, share x 2, share x 3] (by simp) (by
      simp only [share, List.map_cons, List.map_nil]
      decide) hf (by
      intro r hr
      simp only [List.mem_cons, List.not_mem_nil, or_false] at hr
      rcases hr with rfl | rfl | rfl
      · simp only [share, B32.val_ofZ]
        rw [point_idx _ (by norm_num), ← he 0 (by simp)]
      · simp only [share, B32.val_ofZ]
        rw [point_idx _ (by norm_num), ← he 1 (by simp)]
      · simp only [share, B32.val_ofZ]
        rw [point_idx _ (by norm_num), ← he 2 (by simp)])]
  rfl

/-- Two polynomials of degree less than 3 that agree at three points are equal. -/
theorem eq_of_three (f g : (ZMod L)[X]) (hf : f.degree < (3 : ℕ)) (hg : g.degree < (3 : ℕ)) (s : Finset ℕ) (hs : s.card = 3)
    (hlt : ∀ a ∈ s, a < 6) (h : ∀ a ∈ s, f.eval (a : ZMod L) = g.eval (a : ZMod L)) : f = g := by
  have hinj : Set.InjOn (fun a : ℕ => (a : ZMod L)) s := by
    intro a ha b hb hab
    have ha := hlt a ha
    have hb := hlt b hb
    have hl := L_gt
    have := congrArg ZMod.val hab
    simp only [ZMod.val_natCast] at this
    rwa [Nat.mod_eq_of_lt (by omega), Nat.mod_eq_of_lt (by omega)] at this
  have hc : (s.image fun a : ℕ => (a : ZMod L)).card = 3 := by rw [Finset.card_image_of_injOn hinj, hs]
  refine Polynomial.eq_of_degrees_lt_of_eval_finset_eq (s.image fun a : ℕ => (a : ZMod L)) (by rw [hc]; exact hf)
    (by rw [hc]; exact hg) ?_
  intro y hy
  obtain ⟨a, ha, rfl⟩ := Finset.mem_image.1 hy
  exact h a ha

end

end Verif.PyTests
