import Verif.Proofs.Dkg
import Verif.Props.Toprf

/-!
# Properties C10, C22–C28: distributed key generation (`/repo/src/dkg.c`)
-/

set_option linter.unusedSectionVars false

namespace Verif.Props

open Ristretto Spec Polynomial Verif.Dkg

variable (G : Type) [Ristretto G]

/-! ## C10 -/

theorem onPoly_index_inj {f : (ZMod L)[X]} {s s' : Share} (h : OnPoly f s) (h' : OnPoly f s') (he : s.index = s'.index) :
    s = s' := by
  obtain ⟨i, v⟩ := s
  obtain ⟨i', v'⟩ := s'
  simp only at he
  subst he
  congr 1
  exact B32.canonical_ext h.1 h'.1 (h.2.trans h'.2.symm)

theorem onPoly_nodup {f : (ZMod L)[X]} {l : List Share} (h : ∀ s ∈ l, OnPoly f s) (hn : l.Nodup) :
    (l.map (·.index)).Nodup :=
  List.Nodup.map_on (fun s hs s' hs' he => onPoly_index_inj (h s hs) (h s' hs') he) hn

/-- **C10.** Any at least threshold-many different shares dealt by `toprf_create_shares`, in any order, reconstruct the
secret. -/
theorem C10_reconstruct (secret : B32) (hs : secret.Canonical) (n t : UInt8) (rnd : ℕ → B32) (out shares : List Share)
    (ht : 2 ≤ t.toNat) (hn : n.toNat ≤ 254) (ho : out.length = n.toNat)
    (h : Toprf.createShares secret n t rnd out = .ok shares) (sel : List Share) (hnd : sel.Nodup)
    (hsub : sel ⊆ shares) (hlen : t.toNat ≤ sel.length) : reconstruct sel = .ok secret := by
  obtain ⟨f, shares', h1, h2, h3, _, _, h6⟩ := C09_create_shares secret (Toprf.NoOverflow.of_canonical hs) n t rnd out ht
    hn (by omega)
  rw [← ho, List.drop_length, List.append_nil, h] at h1
  obtain rfl : shares = shares' := by simpa using h1
  have hsel := fun s hs => h6 s (hsub hs)
  rw [reconstruct_recovers f sel (by intro h; rw [h] at hlen; simp at hlen; omega) (onPoly_nodup hsel hnd)
    (lt_of_lt_of_le h2 (by exact_mod_cast hlen)) (fun s hs => (hsel s hs).2), h3, B32.ofZ_val hs]

example : (B32.ofZ ((7 : ℕ) : ZMod L)).Canonical ∧ 2 ≤ (3 : UInt8).toNat ∧ (5 : UInt8).toNat ≤ 254 ∧
    ∃ shares, Toprf.createShares (B32.ofZ ((7 : ℕ) : ZMod L)) 5 3 (fun _ => B32.ofZ 1)
      (List.replicate 5 ⟨0, zero32⟩) = .ok shares :=
  ⟨B32.canonical_ofZ _, by decide, by decide,
    C21_create_shares_safe_partial _ _ _ _ _ (by decide) (by decide) List.length_replicate⟩

/-! ## C22 -/

theorem commitEval_smul (x : ZMod L) : ∀ cs : List (ZMod L),
    commitEval x (cs.map fun c => c • (base : G)) = (polyOf cs).eval x • (base : G)
  | [] => by simp [commitEval, polyOf]
  | c :: cs => by
    rw [List.map_cons, commitEval, commitEval_smul x cs, polyOf_eval_cons, add_smul, mul_smul]

/-- **C22.** `dkg_start` returns 0, writes exactly `threshold` commitments and `n` shares, and every receiver accepts
its share against the commitments. -/
theorem C22_honest_shares_verify (n t : UInt8) (rnd : ℕ → B32) (hr : ∀ k, RandomScalar (rnd k)) (cs0 : List B32)
    (sh0 : List Share) (ht : 1 ≤ t.toNat) (hn : n.toNat ≤ 254) (hc : cs0.length = t.toNat) (ho : sh0.length = n.toNat) :
    ∃ cs shares, start G true n t rnd cs0 sh0 = .ok (0, cs, shares) ∧ cs.length = t.toNat ∧ shares.length = n.toNat ∧
      ∀ (self i : UInt8) (scratch : B32) (s : Share), 1 ≤ self.toNat → shares[self.toNat - 1]? = some s →
        s.index = self ∧ verifyCommitment G scratch t self i cs s = .ok 0 := by
  classical
  refine ⟨_, _, start_eq G n t rnd cs0 sh0 ht hn (by omega) (by omega) (hr 0).1, by simp [hc], by simp [ho], ?_⟩
  intro self i scratch s h1 hs
  have hle : self.toNat - 1 < n.toNat := by
    have := (List.getElem?_eq_some_iff.1 hs).1
    simp [ho] at this; omega
  have e1 : 1 + (self.toNat - 1) = self.toNat := by omega
  have hs' : s = dealt t.toNat rnd self := by
    rw [List.getElem?_append_left (by simp; omega), List.getElem?_map, List.getElem?_range' (by omega)] at hs
    simp only [one_mul, e1, UInt8.ofNat_toNat, Option.map_some, Option.some.injEq] at hs
    exact hs.symm
  refine ⟨by rw [hs']; rfl, ?_⟩
  by_cases hi : i = self
  · simp [verifyCommitment, hi]
  have hself : self ≠ 0 := by rintro rfl; simp at h1
  have hcs : (List.range t.toNat).map (fun k => enc (maskedVal (rnd k) • (base : G))) ++ cs0.drop t.toNat =
      ((List.range t.toNat).map (fun k => (rnd k).val • (base : G))).map enc := by
    rw [List.drop_of_length_le (by omega), List.append_nil, List.map_map]
    apply List.map_congr_left
    intro k _
    simp only [Function.comp, maskedVal_canonical (hr k).1]
  rw [hcs, verifyCommitment_eq G scratch t self i _ s ht (by simp) hself hi, if_pos, if_pos]
  · refine ⟨_, List.take_of_length_le (by simp), ?_⟩
    have := commitEval_smul G (point self) ((List.range t.toNat).map fun k => (rnd k).val)
    rw [List.map_map] at this
    have e : (fun k => (rnd k).val • (base : G)) = (fun c : ZMod L => c • (base : G)) ∘ fun k => (rnd k).val := rfl
    rw [e, this, hs', dealt]
    simp only [maskedVal_ofZ]
    rfl
  · intro c hc'
    have hm := List.mem_of_mem_take (List.mem_of_mem_drop hc')
    rw [List.mem_map] at hm
    obtain ⟨P, hP, rfl⟩ := hm
    rw [List.mem_map] at hP
    obtain ⟨k, _, rfl⟩ := hP
    exact ⟨_, dec_enc _, smul_ne_zero (hr k).val_ne base_ne⟩

/-- **C22.** If the memory cannot be locked, nothing is dealt and the call reports failure. -/
theorem C22_start_mlock_fails (n t : UInt8) (rnd : ℕ → B32) (cs0 : List B32) (sh0 : List Share) (ht : 1 ≤ t.toNat) :
    start G false n t rnd cs0 sh0 = .ok (-1, cs0, sh0) := by
  unfold start; rw [if_neg (by omega), if_pos (by simp)]

/-- A 3-of-5 dealing with coefficients 1, 2, 3, … -/
example : (∀ k : ℕ, RandomScalar (B32.ofZ ((k % 250 + 1 : ℕ) : ZMod L))) ∧ 1 ≤ (3 : UInt8).toNat ∧
    (List.replicate 3 zero32).length = (3 : UInt8).toNat :=
  ⟨fun k => Toy.randomScalar _ (by omega) (by omega), by decide, List.length_replicate⟩

/-! ## C23 -/

/-- **C23.** For another dealer's share the check accepts exactly if all commitments are valid encodings, none after
the first is the identity and the share satisfies Feldman's equation at the receiver's index. -/
theorem C23_verify_iff (scratch : B32) (t self i : UInt8) (cs : List B32) (share : Share) (ht : 1 ≤ t.toNat)
    (hl : cs.length = t.toNat) (hs : self ≠ 0) (hi : i ≠ self) :
    verifyCommitment G scratch t self i cs share = .ok 0 ↔
      ∃ Cs : List G, cs = Cs.map enc ∧ (∀ c ∈ Cs.drop 1, c ≠ 0) ∧
        maskedVal share.value • (base : G) = commitEval (point self) Cs := by
  classical
  rw [verifyCommitment_eq G scratch t self i cs share ht (by omega) hs hi]
  have htake : cs.take t.toNat = cs := List.take_of_length_le (by omega)
  constructor
  · intro h
    split at h
    · rename_i hg
      split at h
      · rename_i hc
        obtain ⟨Cs, h1, h2⟩ := hc
        rw [htake] at h1 hg
        refine ⟨Cs, h1, ?_, h2⟩
        intro c hc'
        have : enc c ∈ cs.drop 1 := by rw [h1, ← List.map_drop]; exact List.mem_map_of_mem hc'
        obtain ⟨P, hP, hP0⟩ := hg _ this
        rw [dec_enc] at hP
        cases hP
        exact hP0
      · simp at h
    · simp at h
  · rintro ⟨Cs, h1, h2, h3⟩
    rw [if_pos, if_pos ⟨Cs, by rw [htake, h1], h3⟩]
    intro c hc'
    rw [htake, h1, ← List.map_drop, List.mem_map] at hc'
    obtain ⟨P, hP, rfl⟩ := hc'
    exact ⟨P, dec_enc P, h2 P hP⟩

/-- **C23.** The possible results: 0, 1, or -1, the last exactly if some commitment after the first is malformed or the
identity. -/
theorem C23_verify_malformed_iff (scratch : B32) (t self i : UInt8) (cs : List B32) (share : Share) (ht : 1 ≤ t.toNat)
    (hl : cs.length = t.toNat) (hs : self ≠ 0) (hi : i ≠ self) :
    (∃ r, verifyCommitment G scratch t self i cs share = .ok r ∧ (r = 0 ∨ r = 1 ∨ r = -1)) ∧
    (verifyCommitment G scratch t self i cs share = .ok (-1) ↔
      ∃ c ∈ cs.drop 1, ¬ ∃ P : G, dec c = some P ∧ P ≠ 0) := by
  classical
  rw [verifyCommitment_eq G scratch t self i cs share ht (by omega) hs hi]
  have htake : cs.take t.toNat = cs := List.take_of_length_le (by omega)
  rw [htake]
  constructor
  · refine ⟨_, rfl, ?_⟩
    split
    · split <;> simp
    · simp
  · constructor
    · intro h
      by_contra hcon
      push Not at hcon
      have hcon' : ∀ c ∈ cs.drop 1, Good G c := hcon
      rw [if_pos hcon'] at h
      split at h <;> simp at h
    · rintro ⟨c, hc, hbad⟩
      rw [if_neg (fun h => hbad (h c hc))]

/-- **C23.** All shares accepted from one dealer lie on one polynomial of degree below the threshold, whose value at 0
is the discrete logarithm of the first commitment. -/
theorem C23_accepted_on_polynomial (t : UInt8) (cs : List B32) (ht : 1 ≤ t.toNat) (hl : cs.length = t.toNat) :
    ∃ f : (ZMod L)[X], f.degree < t.toNat ∧ ∀ (scratch : B32) (self i : UInt8) (share : Share), self ≠ 0 → i ≠ self →
      verifyCommitment G scratch t self i cs share = .ok 0 →
        maskedVal share.value = f.eval (point self) ∧ cs[0]? = some (enc (f.eval 0 • (base : G))) := by
  classical
  by_cases hex : ∃ Cs : List G, cs = Cs.map enc
  · obtain ⟨Cs, rfl⟩ := hex
    choose log hlog using fun g : G => exists_smul_base g
    have hCs : Cs = (Cs.map log).map fun c => c • (base : G) := by
      rw [List.map_map]
      conv_lhs => rw [← List.map_id Cs]
      apply List.map_congr_left
      intro c _
      exact hlog c
    refine ⟨polyOf (Cs.map log), by simpa [← hl] using polyOf_degree (Cs.map log), ?_⟩
    intro scratch self i share hs hi h
    obtain ⟨Cs', h1, _, h3⟩ := (C23_verify_iff G scratch t self i _ share ht hl hs hi).1 h
    have : Cs' = Cs := List.map_injective_iff.2 enc_injective h1.symm
    rw [this, hCs, commitEval_smul] at h3
    refine ⟨smul_base_inj h3, ?_⟩
    cases Cs with
    | nil => simp at hl; omega
    | cons c Cs => rw [List.map_cons, List.map_cons, polyOf_eval_zero, ← hlog]; rfl
  · refine ⟨0, by rw [degree_zero]; exact WithBot.bot_lt_coe _, ?_⟩
    intro scratch self i share hs hi h
    obtain ⟨Cs', h1, _⟩ := (C23_verify_iff G scratch t self i _ share ht hl hs hi).1 h
    exact absurd ⟨Cs', h1⟩ hex

/-- Both verdicts occur: with commitments to `1 + 2x`, receiver 3 accepts 7 and refuses 8. -/
example (scratch : B32) :
    verifyCommitment G scratch 2 3 1 [enc (((1 : ℕ) : ZMod L) • (base : G)), enc (((2 : ℕ) : ZMod L) • (base : G))]
      ⟨3, B32.ofZ ((7 : ℕ) : ZMod L)⟩ = .ok 0 ∧
    verifyCommitment G scratch 2 3 1 [enc (((1 : ℕ) : ZMod L) • (base : G)), enc (((2 : ℕ) : ZMod L) • (base : G))]
      ⟨3, B32.ofZ ((8 : ℕ) : ZMod L)⟩ ≠ .ok 0 := by
  have hce : commitEval (point 3) [((1 : ℕ) : ZMod L) • (base : G), ((2 : ℕ) : ZMod L) • (base : G)] =
      ((7 : ℕ) : ZMod L) • (base : G) := by
    have e : UInt8.toNat 3 = 3 := rfl
    simp only [commitEval, smul_zero, add_zero, smul_smul, ← add_smul, point, e]
    congr 1
    norm_num
  constructor
  · rw [C23_verify_iff G scratch 2 3 1 _ _ (by decide) rfl (by decide) (by decide)]
    refine ⟨[((1 : ℕ) : ZMod L) • (base : G), ((2 : ℕ) : ZMod L) • (base : G)], rfl, ?_, ?_⟩
    · intro c hc
      simp only [List.drop_one, List.tail_cons, List.mem_singleton] at hc
      rw [hc]
      exact smul_ne_zero (Toy.natCast_ne_zero (by norm_num) (by norm_num)) base_ne
    · rw [maskedVal_ofZ, hce]
  · rw [Ne, C23_verify_iff G scratch 2 3 1 _ _ (by decide) rfl (by decide) (by decide)]
    rintro ⟨Cs, h1, _, h3⟩
    have : Cs = [((1 : ℕ) : ZMod L) • (base : G), ((2 : ℕ) : ZMod L) • (base : G)] :=
      List.map_injective_iff.2 enc_injective h1.symm
    rw [this, hce, maskedVal_ofZ] at h3
    have := smul_base_inj h3
    have h1 : ((1 : ℕ) : ZMod L) = 0 := by
      have := sub_eq_zero.2 this
      rw [← this]; norm_num
    exact Toy.natCast_ne_zero (by norm_num) (by norm_num) h1

/-! ## C24 -/

/-- Feldman's equation for dealer `i` and receiver `self`, on byte strings. -/
def feldmanOk (self : UInt8) (cs : List B32) (share : Share) : Prop :=
  ∃ Cs : List G, cs = Cs.map enc ∧ maskedVal share.value • (base : G) = commitEval (point self) Cs

open Classical in
/-- **C24, as far as it holds.** If no dealer's commitments after the first are malformed, the returned list names
exactly the dealers other than the receiver whose share does not satisfy Feldman's equation (which includes dealers
with a malformed first commitment), in increasing order; the rest of the buffer is untouched; the return value is 1
exactly if there is such a dealer. Missing: a malformed later commitment, for which the property is false (next
theorem). -/
theorem C24_verify_commitments_partial (scratch : B32) (n t self : UInt8) (cs : List (List B32)) (shares : List Share)
    (fails : List UInt8) (ht : 1 ≤ t.toNat) (hn : n.toNat ≤ 254) (hs : self ≠ 0) (hc : cs.length = n.toNat)
    (hsh : shares.length = n.toNat) (hf : fails.length = n.toNat) (hct : ∀ c ∈ cs, c.length = t.toNat)
    (hgood : ∀ i, i < n.toNat → i + 1 ≠ self.toNat → ∀ c ∈ (cs.getD i []).drop 1, ∃ P : G, dec c = some P ∧ P ≠ 0) :
    let bads := ((List.range' 1 n.toNat).filter fun i => i ≠ self.toNat ∧
      ¬ feldmanOk G self (cs.getD (i - 1) []) (shares.getD (i - 1) ⟨0, zero32⟩)).map UInt8.ofNat
    verifyCommitments G scratch n t self cs shares fails =
      .ok (if bads = [] then 0 else 1, bads ++ fails.drop bads.length, UInt8.ofNat bads.length) := by
  intro bads
  set bad : UInt8 → Bool := fun i =>
    decide (¬ feldmanOk G self (cs.getD (i.toNat - 1) []) (shares.getD (i.toNat - 1) ⟨0, zero32⟩)) with hbad
  have key := verifyAll_eq G scratch n t self cs shares hn (by omega) (by omega) bad (by
    intro i c s h1 h2 h3 h4 h5
    have hlen : c.length = t.toNat := hct c (List.mem_of_getElem? h4)
    have hgd : cs.getD (i.toNat - 1) [] = c := by simp [List.getD, h4]
    have hsd : shares.getD (i.toNat - 1) ⟨0, zero32⟩ = s := by simp [List.getD, h5]
    have htake : c.take t.toNat = c := List.take_of_length_le (by omega)
    rw [verifyCommitment_eq G scratch t self i c s ht (by omega) hs h3, if_pos]
    · rw [hbad]
      simp only [hgd, hsd]
      unfold Consistent feldmanOk
      rw [htake]
      by_cases hcc : ∃ Cs : List G, c = Cs.map enc ∧ maskedVal s.value • (base : G) = commitEval (point self) Cs
      · simp only [hcc, if_true, not_true_eq_false, decide_false, Bool.false_eq_true, if_false]
      · simp only [hcc, if_false, not_false_eq_true, decide_true, if_true]
    · rw [htake]
      have := hgood (i.toNat - 1) (by omega) (by
        intro h
        apply h3
        apply UInt8.toNat_inj.1
        omega)
      rwa [hgd] at this) 257 1 [] fails (by simp) (by simp) (by simp; omega) (by simp) (by simp; omega)
  have e1 : (1 : UInt8).toNat = 1 := rfl
  have hb : ((List.range' 1 n.toNat).map UInt8.ofNat).filter (fun i => decide (i ≠ self ∧ bad i = true)) = bads := by
    rw [List.filter_map]
    congr 1
    apply List.filter_congr
    intro k hk
    rw [List.mem_range'_1] at hk
    have hk1 : (UInt8.ofNat k).toNat = k := by simp; omega
    have hne : UInt8.ofNat k ≠ self ↔ k ≠ self.toNat := by
      rw [Ne, Ne, ← UInt8.toNat_inj, hk1]
    simp only [Function.comp, hbad, hk1, decide_eq_true_eq, hne]
  unfold verifyCommitments
  simp only [List.nil_append, List.length_nil, e1, Nat.add_sub_cancel, Nat.sub_zero, hb] at key
  exact key

/-- **C24 is violated.** One dealer with a malformed (or zero) commitment after the first hides itself and every later
bad dealer: if dealer 1 does it, the call returns -1 with an empty list, whatever the other dealers sent. -/
theorem C24_malformed_hides (scratch : B32) (n t self : UInt8) (cs : List (List B32)) (shares : List Share)
    (fails : List UInt8) (ht : 1 ≤ t.toNat) (hn : 1 ≤ n.toNat) (hs : self ≠ 0) (hs1 : self ≠ 1) (hc : cs.length = n.toNat)
    (hsh : shares.length = n.toNat) (hct : ∀ c ∈ cs, c.length = t.toNat)
    (hbad : ∃ c ∈ (cs.getD 0 []).drop 1, ¬ ∃ P : G, dec c = some P ∧ P ≠ 0) :
    verifyCommitments G scratch n t self cs shares fails = .ok (-1, fails, 0) := by
  obtain ⟨c0, cs', rfl⟩ : ∃ c0 cs', cs = c0 :: cs' := by
    cases cs with
    | nil => simp at hc; omega
    | cons c cs => exact ⟨c, cs, rfl⟩
  have h1n : (1 : UInt8) ≤ n := hn
  unfold verifyCommitments
  rw [verifyAll, if_pos h1n, if_neg (Ne.symm hs1), if_neg (by decide)]
  have e1 : (1 : UInt8).toNat - 1 = 0 := rfl
  rw [e1, ld_ok (by simp), C.ok_bind, ld_ok (by omega), C.ok_bind]
  have := (C23_verify_malformed_iff G scratch t self 1 c0 shares[0] ht (hct c0 (by simp)) hs (Ne.symm hs1)).2.2
    (by simpa using hbad)
  simp only [List.getElem_cons_zero]
  rw [this, C.ok_bind, if_pos rfl]

/-- A malformed second commitment: the identity (or, for every group, a string that is no encoding). -/
example : ∃ c ∈ (([[enc (base : G), zero32]] : List (List B32)).getD 0 []).drop 1,
    ¬ ∃ P : G, dec c = some P ∧ P ≠ 0 := by
  refine ⟨zero32, by simp, ?_⟩
  rintro ⟨P, h, hP⟩
  rw [dec_zero] at h
  cases h
  exact hP rfl

/-! ## C25 -/

theorem eval_list_sum (x : ZMod L) : ∀ l : List (ZMod L)[X], (l.sum).eval x = (l.map fun f => f.eval x).sum
  | [] => by simp
  | f :: l => by simp [eval_list_sum x l]

theorem degree_list_sum (t : ℕ) : ∀ l : List (ZMod L)[X], (∀ f ∈ l, f.degree < t) → l.sum.degree < t
  | [], _ => by simp
  | f :: l, h => by
    rw [List.sum_cons]
    exact lt_of_le_of_lt (degree_add_le _ _) (max_lt (h f (by simp)) (degree_list_sum t l fun f hf => h f (by simp [hf])))

/-- **C25.** `n` dealers run `dkg_start`; receiver `j` collects its shares and runs `dkg_finish`. The final shares lie on
one polynomial of degree below the threshold, whose value at 0 is the sum of the dealers' secrets. -/
theorem C25_dkg_sum (n t : UInt8) (ht : 1 ≤ t.toNat) (hn : n.toNat ≤ 254) (rnds : List (ℕ → B32))
    (hr : ∀ rnd ∈ rnds, ∀ k, RandomScalar (rnd k)) (hlen : rnds.length = n.toNat) (cs0 : List B32)
    (hc : cs0.length = t.toNat) (sh0 : List Share) (ho : sh0.length = n.toNat) (deals : List (List Share))
    (hd : List.Forall₂ (fun rnd sh => ∃ cs, start G true n t rnd cs0 sh0 = .ok (0, cs, sh)) rnds deals) :
    ∃ f : (ZMod L)[X], f.degree < t.toNat ∧ f.eval 0 = (rnds.map fun rnd => (rnd 0).val).sum ∧
      ∀ (j : UInt8) (v : B32), 1 ≤ j.toNat → j.toNat ≤ n.toNat →
        ∃ x, finish n (deals.map fun sh => sh.getD (j.toNat - 1) ⟨0, zero32⟩) ⟨j, v⟩ = .ok x ∧ x.index = j ∧ OnPoly f x := by
  have hdeals : deals = rnds.map fun rnd =>
      (List.range' 1 n.toNat).map (fun k => dealt t.toNat rnd (UInt8.ofNat k)) := by
    clear hlen
    induction hd with
    | nil => rfl
    | cons h _ ih =>
      obtain ⟨cs, h⟩ := h
      rw [start_eq G n t _ cs0 sh0 ht hn (by omega) (by omega) (hr _ (List.mem_cons_self) 0).1] at h
      rw [List.map_cons, ← ih (fun rnd hm => hr rnd (List.mem_cons_of_mem _ hm))]
      congr 1
      have : sh0.drop n.toNat = [] := List.drop_of_length_le (by omega)
      rw [this, List.append_nil] at h
      simp only [C.ok.injEq, Prod.mk.injEq, true_and] at h
      exact h.2.symm
  refine ⟨(rnds.map fun rnd => dealer t.toNat rnd).sum, ?_, ?_, ?_⟩
  · apply degree_list_sum
    intro f hf
    rw [List.mem_map] at hf
    obtain ⟨rnd, _, rfl⟩ := hf
    exact dealer_degree _ _
  · rw [eval_list_sum, List.map_map]
    congr 1
    apply List.map_congr_left
    intro rnd _
    exact dealer_zero _ ht _
  · intro j v h1 h2
    have hcol : (deals.map fun sh => sh.getD (j.toNat - 1) ⟨0, zero32⟩) = rnds.map fun rnd => dealt t.toNat rnd j := by
      rw [hdeals, List.map_map]
      apply List.map_congr_left
      intro rnd _
      have e1 : 1 + (j.toNat - 1) = j.toNat := by omega
      simp only [Function.comp, List.getD, List.getElem?_map]
      rw [List.getElem?_range' (by omega)]
      simp [e1]
    rw [hcol, finish_eq n _ _ (by simp [hlen]) (by
      intro s hs
      rw [List.mem_map] at hs
      obtain ⟨rnd, _, rfl⟩ := hs
      exact lt_trans (B32.canonical_ofZ _) L_lt_255)]
    refine ⟨_, rfl, rfl, B32.canonical_ofZ _, ?_⟩
    rw [B32.val_ofZ, List.take_of_length_le (by simp [hlen]), eval_list_sum, List.map_map, List.map_map]
    congr 1
    apply List.map_congr_left
    intro rnd _
    simp [Function.comp, dealt]

/-- **C25.** Any at least threshold-many final shares reconstruct the sum of the dealers' secrets. -/
theorem C25_dkg_reconstruct (n t : UInt8) (ht : 1 ≤ t.toNat) (hn : n.toNat ≤ 254) (rnds : List (ℕ → B32))
    (hr : ∀ rnd ∈ rnds, ∀ k, RandomScalar (rnd k)) (hlen : rnds.length = n.toNat) (cs0 : List B32)
    (hc : cs0.length = t.toNat) (sh0 : List Share) (ho : sh0.length = n.toNat) (deals : List (List Share))
    (hd : List.Forall₂ (fun rnd sh => ∃ cs, start G true n t rnd cs0 sh0 = .ok (0, cs, sh)) rnds deals)
    (sel : List Share) (hnd : sel.Nodup) (hsel : t.toNat ≤ sel.length)
    (hfin : ∀ x ∈ sel, 1 ≤ x.index.toNat ∧ x.index.toNat ≤ n.toNat ∧ ∃ v,
      finish n (deals.map fun sh => sh.getD (x.index.toNat - 1) ⟨0, zero32⟩) ⟨x.index, v⟩ = .ok x) :
    reconstruct sel = .ok (B32.ofZ (rnds.map fun rnd => (rnd 0).val).sum) := by
  obtain ⟨f, h1, h2, h3⟩ := C25_dkg_sum G n t ht hn rnds hr hlen cs0 hc sh0 ho deals hd
  have hon : ∀ x ∈ sel, OnPoly f x := by
    intro x hx
    obtain ⟨ha, hb, v, hv⟩ := hfin x hx
    obtain ⟨x', hx', _, hp⟩ := h3 x.index v ha hb
    rw [hv] at hx'
    obtain rfl : x = x' := by simpa using hx'
    exact hp
  rw [reconstruct_recovers f sel (by intro h; rw [h] at hsel; simp at hsel; omega) (onPoly_nodup hon hnd)
    (lt_of_lt_of_le h1 (by exact_mod_cast hsel)) (fun s hs => (hon s hs).2), h2]

/-- Two dealers and `n = 2`, `t = 2` meet the hypotheses. -/
example : ∃ deals, List.Forall₂ (fun rnd sh => ∃ cs, start G true 2 2 rnd (List.replicate 2 zero32)
    (List.replicate 2 ⟨0, zero32⟩) = .ok (0, cs, sh))
    [fun k => B32.ofZ ((k % 250 + 1 : ℕ) : ZMod L), fun _ => B32.ofZ ((9 : ℕ) : ZMod L)] deals := by
  have h1 := start_eq G 2 2 (fun k => B32.ofZ ((k % 250 + 1 : ℕ) : ZMod L)) (List.replicate 2 zero32)
    (List.replicate 2 ⟨0, zero32⟩) (by decide) (by decide) (by simp) (by simp) (B32.canonical_ofZ _)
  have h2 := start_eq G 2 2 (fun _ => B32.ofZ ((9 : ℕ) : ZMod L)) (List.replicate 2 zero32)
    (List.replicate 2 ⟨0, zero32⟩) (by decide) (by decide) (by simp) (by simp) (B32.canonical_ofZ _)
  exact ⟨_, .cons ⟨_, h1⟩ (.cons ⟨_, h2⟩ .nil)⟩

/-! ## C26 -/

/-- What receiver `r.1` accepted from all dealers: for other dealers `dkg_verify_commitment` returned 0, its own
dealing is honest. -/
def Accepted (scratch : B32) (t : UInt8) (css : List (List B32)) (r : UInt8 × List Share) : Prop :=
  ∀ i, i < css.length → if i + 1 = r.1.toNat then feldmanOk G r.1 (css.getD i []) (r.2.getD i ⟨0, zero32⟩) else
    verifyCommitment G scratch t r.1 (UInt8.ofNat (i + 1)) (css.getD i []) (r.2.getD i ⟨0, zero32⟩) = .ok 0

/-- **C26.** Whatever the dealers sent: if at least threshold-many receivers accepted all (canonical) shares, then the
key reconstructed from their final shares is the discrete logarithm of the sum of the dealers' first commitments. -/
theorem C26_dkg_public_key (scratch : B32) (n t : UInt8) (ht : 1 ≤ t.toNat) (hn : n.toNat ≤ 254) (css : List (List B32))
    (hcss : css.length = n.toNat) (hct : ∀ c ∈ css, c.length = t.toNat) (R : List (UInt8 × List Share))
    (hRn : (R.map (·.1)).Nodup) (hR0 : ∀ r ∈ R, r.1 ≠ 0 ∧ r.2.length = n.toNat ∧ ∀ s ∈ r.2, s.value.Canonical)
    (hRt : t.toNat ≤ R.length) (hacc : ∀ r ∈ R, Accepted G scratch t css r) (v : B32) :
    ∃ Ys : List G, css.map (·.head?) = Ys.map (fun Y => some (enc Y)) ∧
      ∃ xs : List Share, List.Forall₂ (fun r x => finish n r.2 ⟨r.1, v⟩ = .ok x) R xs ∧
        ∃ K, reconstruct xs = .ok K ∧ K.Canonical ∧ K.val • (base : G) = Ys.sum := by
  classical
  -- every dealer satisfies Feldman's equation at every receiver
  have hfeld : ∀ r ∈ R, ∀ i, i < css.length → feldmanOk G r.1 (css.getD i []) (r.2.getD i ⟨0, zero32⟩) := by
    intro r hr i hi
    have := hacc r hr i hi
    split at this
    · exact this
    · rename_i hne
      have hin : css.getD i [] ∈ css := by
        rw [List.getD_eq_getElem?_getD, List.getElem?_eq_getElem hi]; exact List.getElem_mem hi
      have hi1 : (UInt8.ofNat (i + 1)).toNat = i + 1 := by simp; omega
      obtain ⟨Cs, h1, _, h3⟩ := (C23_verify_iff G scratch t r.1 (UInt8.ofNat (i + 1)) _ _ ht (hct _ hin) (hR0 r hr).1
        (by intro h; apply hne; rw [← h, hi1])).1 this
      exact ⟨Cs, h1, h3⟩
  obtain ⟨r0, hr0⟩ : ∃ r0, r0 ∈ R := by
    cases R with
    | nil => simp at hRt; omega
    | cons r R => exact ⟨r, by simp⟩
  -- the commitments as group elements
  have hdec : ∀ i, i < css.length → ∃ Cs : List G, css.getD i [] = Cs.map enc := fun i hi => by
    obtain ⟨Cs, h, _⟩ := hfeld r0 hr0 i hi
    exact ⟨Cs, h⟩
  choose! Cs hCs using hdec
  choose log hlog using fun g : G => exists_smul_base g
  have hsm : ∀ l : List G, l = (l.map log).map fun c => c • (base : G) := by
    intro l
    rw [List.map_map]
    conv_lhs => rw [← List.map_id l]
    apply List.map_congr_left
    intro c _
    exact hlog c
  set F : ℕ → (ZMod L)[X] := fun i => polyOf ((Cs i).map log) with hF
  have hCl : ∀ i, i < css.length → (Cs i).length = t.toNat := by
    intro i hi
    have := congrArg List.length (hCs i hi)
    rw [List.length_map] at this
    rw [← this]
    exact hct _ (by rw [List.getD_eq_getElem?_getD, List.getElem?_eq_getElem hi]; exact List.getElem_mem hi)
  have hFdeg : ∀ i, i < css.length → (F i).degree < t.toNat := by
    intro i hi
    have := polyOf_degree ((Cs i).map log)
    rwa [List.length_map, hCl i hi] at this
  -- shares lie on the polynomials
  have hshare : ∀ r ∈ R, ∀ i, i < css.length → (r.2.getD i ⟨0, zero32⟩).value.val = (F i).eval (point r.1) := by
    intro r hr i hi
    obtain ⟨Ds, h1, h2⟩ := hfeld r hr i hi
    have : Ds = Cs i := by
      apply List.map_injective_iff.2 enc_injective
      rw [← h1, hCs i hi]
    rw [this, hsm (Cs i), commitEval_smul] at h2
    have hcan : (r.2.getD i ⟨0, zero32⟩).value.Canonical := by
      have hl : i < r.2.length := by rw [(hR0 r hr).2.1, ← hcss]; exact hi
      rw [List.getD_eq_getElem?_getD, List.getElem?_eq_getElem hl]
      exact (hR0 r hr).2.2 _ (List.getElem_mem hl)
    rw [maskedVal_canonical hcan] at h2
    exact smul_base_inj h2
  set f := ((List.range css.length).map F).sum with hf
  have hfdeg : f.degree < t.toNat := by
    apply degree_list_sum
    intro g hg
    rw [List.mem_map] at hg
    obtain ⟨i, hi, rfl⟩ := hg
    exact hFdeg i (by simpa using hi)
  -- final shares
  have hfin : ∀ r ∈ R, finish n r.2 ⟨r.1, v⟩ = .ok ⟨r.1, B32.ofZ (f.eval (point r.1))⟩ := by
    intro r hr
    rw [finish_eq n r.2 _ (by rw [(hR0 r hr).2.1]) (fun s hs => lt_trans ((hR0 r hr).2.2 s hs) L_lt_255)]
    congr 4
    rw [List.take_of_length_le (by rw [(hR0 r hr).2.1]), hf, eval_list_sum, List.map_map]
    have hl : r.2.length = css.length := by rw [(hR0 r hr).2.1, hcss]
    have : r.2.map (·.value.val) = (List.range css.length).map ((fun g => eval (point r.1) g) ∘ F) := by
      apply List.ext_getElem
      · simp [hl]
      · intro i h1 h2
        have hi : i < css.length := by simpa using h2
        have hi' : i < r.2.length := by omega
        have := hshare r hr i hi
        rw [List.getD_eq_getElem?_getD, List.getElem?_eq_getElem hi', Option.getD_some] at this
        simp only [List.getElem_map, List.getElem_range, Function.comp]
        exact this
    rw [this]
  refine ⟨(List.range css.length).map (fun i => (F i).eval 0 • (base : G)), ?_, ?_⟩
  · apply List.ext_getElem
    · simp
    · intro i h1 h2
      have hi : i < css.length := by simpa using h1
      have hg : css.getD i [] = css[i] := by rw [List.getD_eq_getElem?_getD, List.getElem?_eq_getElem hi]; rfl
      have h3 := hCs i hi
      rw [hg] at h3
      simp only [List.getElem_map, List.getElem_range, h3]
      cases hC : Cs i with
      | nil => have := hCl i hi; rw [hC] at this; simp at this; omega
      | cons c C =>
        simp only [List.map_cons, List.head?_cons, hF, hC]
        rw [polyOf_eval_zero, ← hlog]
  · refine ⟨R.map fun r => ⟨r.1, B32.ofZ (f.eval (point r.1))⟩, ?_, ?_⟩
    · rw [List.forall₂_map_right_iff]
      exact List.forall₂_same.2 hfin
    · refine ⟨_, reconstruct_recovers f _ ?_ ?_ ?_ ?_, B32.canonical_ofZ _, ?_⟩
      · intro h
        rw [List.map_eq_nil_iff] at h
        rw [h] at hr0; simp at hr0
      · simpa [List.map_map, Function.comp_def] using hRn
      · rw [List.length_map]
        exact lt_of_lt_of_le hfdeg (by exact_mod_cast hRt)
      · intro s hs
        rw [List.mem_map] at hs
        obtain ⟨r, _, rfl⟩ := hs
        exact B32.val_ofZ _
      · rw [B32.val_ofZ, hf, eval_list_sum, List.map_map, sum_map_smul]
        rfl

/-- The dealing of the polynomial `a + b x` satisfies the check at every receiver. -/
theorem linear_verifies (scratch : B32) (self i : UInt8) (a b : ZMod L) (hb : b ≠ 0) (hs : self ≠ 0) :
    feldmanOk G self [enc (a • (base : G)), enc (b • (base : G))] ⟨self, B32.ofZ (a + point self * b)⟩ ∧
    (i ≠ self → verifyCommitment G scratch 2 self i [enc (a • (base : G)), enc (b • (base : G))]
      ⟨self, B32.ofZ (a + point self * b)⟩ = .ok 0) := by
  have h : maskedVal (B32.ofZ (a + point self * b)) • (base : G) =
      commitEval (point self) [a • (base : G), b • (base : G)] := by
    rw [maskedVal_ofZ]
    simp only [commitEval, smul_zero, add_zero, smul_smul, ← add_smul]
  refine ⟨⟨_, rfl, h⟩, fun hi => ?_⟩
  rw [C23_verify_iff G scratch 2 self i _ _ (by decide) rfl hs hi]
  refine ⟨[a • (base : G), b • (base : G)], rfl, ?_, h⟩
  intro c hc
  simp only [List.drop_one, List.tail_cons, List.mem_singleton] at hc
  rw [hc]
  exact smul_ne_zero hb base_ne

/-- The hypotheses can be met: two dealers share `1 + 2x` and `3 + 4x`; receivers 1 and 2 accept everything. -/
example (scratch : B32) : ∀ j ∈ [(1 : UInt8), 2], Accepted G scratch 2
    [[enc ((1 : ZMod L) • (base : G)), enc (((2 : ℕ) : ZMod L) • (base : G))],
     [enc ((3 : ZMod L) • (base : G)), enc (((4 : ℕ) : ZMod L) • (base : G))]]
    (j, [⟨j, B32.ofZ (1 + point j * ((2 : ℕ) : ZMod L))⟩, ⟨j, B32.ofZ (3 + point j * ((4 : ℕ) : ZMod L))⟩]) := by
  intro j hj i hi
  have hj0 : j ≠ 0 := by rintro rfl; simp at hj
  have h2 : ((2 : ℕ) : ZMod L) ≠ 0 := Toy.natCast_ne_zero (by norm_num) (by norm_num)
  have h4 : ((4 : ℕ) : ZMod L) ≠ 0 := Toy.natCast_ne_zero (by norm_num) (by norm_num)
  have hi2 : i = 0 ∨ i = 1 := by simp at hi; omega
  split
  · rcases hi2 with rfl | rfl
    · exact (linear_verifies G scratch j 0 _ _ h2 hj0).1
    · exact (linear_verifies G scratch j 0 _ _ h4 hj0).1
  · rename_i hne
    rcases hi2 with rfl | rfl
    · exact (linear_verifies G scratch j _ _ _ h2 hj0).2 (by rintro h; apply hne; rw [← h]; rfl)
    · exact (linear_verifies G scratch j _ _ _ h4 hj0).2 (by rintro h; apply hne; rw [← h]; rfl)

/-! ## C27 -/

/-- **C27, as far as it holds.** An accepted share whose top bit is clear (every canonical one) contributes exactly the
committed value: there is one polynomial for the dealer such that the accepted share adds its value to the sum of the
others. Missing: shares with bit 255 set, see the next theorem. -/
theorem C27_share_contributes_partial (t : UInt8) (cs : List B32) (ht : 1 ≤ t.toNat) (hl : cs.length = t.toNat) :
    ∃ f : (ZMod L)[X], f.degree < t.toNat ∧
      ∀ (scratch : B32) (n self i : UInt8) (share : Share) (pre post : List Share) (xi : Share), self ≠ 0 → i ≠ self →
        (pre ++ share :: post).length = n.toNat → (∀ s ∈ pre ++ share :: post, s.value.toNat < 2 ^ 255) →
        verifyCommitment G scratch t self i cs share = .ok 0 →
        ∃ x, finish n (pre ++ share :: post) xi = .ok x ∧
          x.value.val = (pre.map (·.value.val)).sum + f.eval (point self) + (post.map (·.value.val)).sum := by
  obtain ⟨f, hf, h⟩ := C23_accepted_on_polynomial G t cs ht hl
  refine ⟨f, hf, ?_⟩
  intro scratch n self i share pre post xi hs hi hlen hv hver
  have h1 := (h scratch self i share hs hi hver).1
  have h2 : maskedVal share.value = share.value.val := by
    rw [maskedVal, Nat.mod_eq_of_lt (hv share (by simp))]; rfl
  refine ⟨_, finish_eq n _ xi (by omega) hv, ?_⟩
  rw [B32.val_ofZ, List.take_of_length_le (by omega), ← h1, h2]
  simp [add_assoc]

/-- **C27 is violated.** Setting bit 255 of an accepted canonical share keeps it accepted, but `dkg_finish` of a single
share then yields a different value: `2^255` is added, which is not 0 modulo the group order. -/
theorem C27_top_bit_malleable (scratch : B32) (t self i : UInt8) (cs : List B32) (j : UInt8) (v : B32) (hv : v.Canonical)
    (xi : Share) :
    verifyCommitment G scratch t self i cs ⟨j, B32.ofNat (v.toNat + 2 ^ 255)⟩ =
      verifyCommitment G scratch t self i cs ⟨j, v⟩ ∧
    ∃ x x', finish 1 [⟨j, v⟩] xi = .ok x ∧ finish 1 [⟨j, B32.ofNat (v.toNat + 2 ^ 255)⟩] xi = .ok x' ∧
      x'.value.val = x.value.val + 2 ^ 255 ∧ x'.value ≠ x.value := by
  have hvL : v.toNat < L := hv
  have hL := L_lt_255
  have hL2 : L < 2 ^ 253 := L_lt
  have hb : (B32.ofNat (v.toNat + 2 ^ 255)).toNat = v.toNat + 2 ^ 255 :=
    B32.toNat_ofNat_of_lt (by
      calc v.toNat + 2 ^ 255 < 2 ^ 255 + 2 ^ 255 := by omega
        _ = 2 ^ 256 := by norm_num)
  have hmask : maskedVal (B32.ofNat (v.toNat + 2 ^ 255)) = maskedVal v := by
    rw [maskedVal, maskedVal, hb, Nat.add_mod_right]
  have hbase : scalarmultBase G (B32.ofNat (v.toNat + 2 ^ 255)) = scalarmultBase G v := by
    simp only [scalarmultBase, hmask]
  refine ⟨by simp only [verifyCommitment, hbase], ?_⟩
  have h0 : zero32.toNat = 0 := zero32_toNat
  have e : ∀ w : B32, finish 1 [⟨j, w⟩] xi = .ok ⟨xi.index, B32.ofZ w.val⟩ := by
    intro w
    unfold finish
    have e1 : (1 : UInt8).toNat = 1 := rfl
    rw [e1, rd_ok (by simp), C.ok_bind]
    simp only [List.drop_zero, List.take_succ_cons, List.take_nil, List.foldl_cons, List.foldl_nil]
    rw [scalarAdd_eq_of_lt (by rw [h0, zero_add]; exact B32.toNat_lt w), zero32_val, zero_add]
  refine ⟨_, _, e v, e _, ?_, ?_⟩
  · simp only [B32.val_ofZ]
    rw [B32.val, hb, Nat.cast_add, Nat.cast_pow]
    rfl
  · intro hc
    have := B32.ofZ_injective hc
    rw [B32.val, hb, Nat.cast_add, Nat.cast_pow] at this
    have h2 : ((2 : ℕ) : ZMod L) ^ 255 = 0 := add_eq_left.1 this
    exact pow_ne_zero 255 (Toy.natCast_ne_zero (by norm_num) (by norm_num)) h2

/-! ## C28 -/

/-- **C28, as far as it holds.** Up to 254 peers and thresholds from 1 on, all functions only access their buffers,
whatever the other parties sent. Missing: `n = 255`, threshold 0 and an empty list of responses (next theorems). -/
theorem C28_dkg_safe_partial (ml : Bool) (scratch : B32) (n t self : UInt8) (hself : self ≠ 0) (ht : 1 ≤ t.toNat)
    (hn : n.toNat ≤ 254) (rnd : ℕ → B32) (hr : ∀ k, RandomScalar (rnd k)) (cs0 : List B32) (hc0 : cs0.length = t.toNat)
    (sh0 : List Share) (hs0 : sh0.length = n.toNat) (css : List (List B32)) (hcss : css.length = n.toNat)
    (hct : ∀ c ∈ css, c.length = t.toNat) (fails : List UInt8) (hf : fails.length = n.toNat) (xi : Share) :
    (start G ml n t rnd cs0 sh0).Safe ∧ (verifyCommitments G scratch n t self css sh0 fails).Safe ∧
      (finish n sh0 xi).Safe := by
  classical
  refine ⟨?_, ?_, ?_⟩
  · cases ml with
    | true => exact ⟨_, start_eq G n t rnd cs0 sh0 ht hn (by omega) (by omega) (hr 0).1⟩
    | false => exact ⟨(-1, cs0, sh0), by unfold start; rw [if_neg (by omega), if_pos (by simp)]⟩
  · unfold verifyCommitments
    have : ∀ (fuel : ℕ) (i : UInt8) (fl : List UInt8) (len : UInt8), 1 ≤ i.toNat → i.toNat ≤ n.toNat + 1 →
        n.toNat + 1 - i.toNat < fuel → len.toNat ≤ i.toNat - 1 → fl.length = n.toNat →
        (verifyAll G scratch n t self css sh0 fuel i fl len).Safe := by
      intro fuel
      induction fuel with
      | zero => intro i fl len _ _ h; omega
      | succ f ih =>
        intro i fl len h1 h2 h3 h4 h5
        rw [verifyAll]
        by_cases hin : i ≤ n
        · have hin' : i.toNat ≤ n.toNat := hin
          have hi1 : (i + 1).toNat = i.toNat + 1 := by rw [UInt8.toNat_add]; simp; omega
          have h0 : i ≠ 0 := by rintro rfl; simp at h1
          rw [if_pos hin]
          split
          · exact ih _ _ _ (by omega) (by omega) (by omega) (by omega) h5
          · rename_i hne
            rw [ld_ok (by omega), C.ok_bind, ld_ok (by omega), C.ok_bind]
            have hl : css[i.toNat - 1].length = t.toNat := hct _ (List.getElem_mem _)
            obtain ⟨r, hr⟩ : ∃ r, verifyCommitment G scratch t self i css[i.toNat - 1] sh0[i.toNat - 1] = .ok r :=
              ⟨_, verifyCommitment_eq G scratch t self i css[i.toNat - 1] _ ht (by omega) hself hne⟩
            rw [hr, C.ok_bind]
            split
            · exact C.safe_ok _
            · split
              · exact ih _ _ _ (by omega) (by omega) (by omega) (by omega) h5
              · rw [st_ok (by omega), C.ok_bind]
                have hl1 : (len + 1).toNat = len.toNat + 1 := by rw [UInt8.toNat_add]; simp; omega
                exact ih _ _ _ (by omega) (by omega) (by omega) (by omega) (by simpa using h5)
        · rw [if_neg hin]; exact C.safe_ok _
    exact this 257 1 fails 0 (by simp) (by simp) (by simp; omega) (by simp) hf
  · unfold finish
    rw [rd_ok (by omega), C.ok_bind]
    exact C.safe_ok _

/-- **C28.** `dkg_reconstruct` is safe exactly for non-empty lists. -/
theorem C28_reconstruct_safe_iff (rs : List Share) : (reconstruct rs).Safe ↔ rs ≠ [] := by
  constructor
  · rintro ⟨a, h⟩ rfl
    simp [reconstruct] at h
  · intro h
    exact ⟨_, reconstruct_eq rs h⟩

/-- **C28 is violated.** With 255 peers neither `dkg_start` nor (when no commitment is malformed)
`dkg_verify_commitments` ends properly: the 8-bit counter wraps around. -/
theorem C28_dkg_255 (scratch : B32) (t self : UInt8) (rnd : ℕ → B32) (cs0 : List B32) (sh0 : List Share)
    (css : List (List B32)) (fails : List UInt8) :
    ¬ (start G true 255 t rnd cs0 sh0).Safe ∧
    ((∀ i c s, verifyCommitment G scratch t self i c s ≠ .ok (-1)) →
      ¬ (verifyCommitments G scratch 255 t self css sh0 fails).Safe) := by
  constructor
  · unfold start
    split
    · exact C.not_safe_ub _
    · rw [if_neg (by simp)]
      cases h : commitLoop G rnd t.toNat 0 cs0 with
      | ub u => exact C.not_safe_ub _
      | ok cs =>
        rw [C.ok_bind]
        cases h' : forLeU8 (shareStep ((List.range t.toNat).map rnd)) 255 257 1 sh0 with
        | ub u => exact C.not_safe_ub _
        | ok s => exact absurd ⟨s, h'⟩ (forLeU8_255 _ _ _ _)
  · intro hgood
    unfold verifyCommitments
    have : ∀ (fuel : ℕ) (i : UInt8) (fl : List UInt8) (len : UInt8),
        ¬ (verifyAll G scratch 255 t self css sh0 fuel i fl len).Safe := by
      intro fuel
      induction fuel with
      | zero => intro i fl len; exact C.not_safe_ub _
      | succ f ih =>
        intro i fl len
        have h : i ≤ 255 := by
          have := i.toNat_lt
          show i.toNat ≤ 255
          omega
        rw [verifyAll, if_pos h]
        split
        · exact ih _ _ _
        · split
          · exact C.not_safe_ub _
          · cases hcs : ld css (i.toNat - 1) with
            | ub u => exact C.not_safe_ub _
            | ok cs =>
              rw [C.ok_bind]
              cases hs : ld sh0 (i.toNat - 1) with
              | ub u => exact C.not_safe_ub _
              | ok s =>
                rw [C.ok_bind]
                cases hv : verifyCommitment G scratch t self i cs s with
                | ub u => exact C.not_safe_ub _
                | ok r =>
                  rw [C.ok_bind]
                  split
                  · rename_i hr
                    rw [hr] at hv
                    exact absurd hv (hgood i cs s)
                  · split
                    · exact ih _ _ _
                    · cases hst : st fl len.toNat i with
                      | ub u => exact C.not_safe_ub _
                      | ok fl' => rw [C.ok_bind]; exact ih _ _ _
    exact this _ _ _ _

/-- **C28 is violated.** Threshold 0 declares an array of size 0. -/
theorem C28_dkg_threshold0 (ml : Bool) (n t : UInt8) (ht : t.toNat = 0) (rnd : ℕ → B32) (cs0 : List B32)
    (sh0 : List Share) : start G ml n t rnd cs0 sh0 = .ub .vla := by
  unfold start; rw [if_pos ht]

example : (4 : UInt8) ≠ 0 ∧ 1 ≤ (3 : UInt8).toNat ∧ (200 : UInt8).toNat ≤ 254 ∧
    (∀ k : ℕ, RandomScalar (B32.ofZ ((k % 250 + 1 : ℕ) : ZMod L))) :=
  ⟨by decide, by decide, by decide, fun k => Toy.randomScalar _ (by omega) (by omega)⟩

end Verif.Props
