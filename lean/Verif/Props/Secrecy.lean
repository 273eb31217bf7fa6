import Verif.Proofs.Secrecy
import Verif.Props.Dkg
import Verif.Props.Mpmult

/-!
# What a coalition sees (C11, C75, C76, C77)
-/

set_option linter.unusedSectionVars false

namespace Verif.Props

open Ristretto Spec Polynomial

/-! ## C11 -/

theorem polyOf_eval_sum (x : ZMod L) : ∀ cs : List (ZMod L),
    (polyOf cs).eval x = ∑ j ∈ Finset.range cs.length, cs.getD j 0 * x ^ j
  | [] => by simp [polyOf]
  | c :: cs => by
    rw [polyOf_eval_cons, polyOf_eval_sum x cs, List.length_cons, Finset.sum_range_succ', Finset.mul_sum, add_comm]
    simp only [List.getD_cons_succ, List.getD_cons_zero, pow_zero, mul_one, add_left_inj]
    refine Finset.sum_congr rfl fun j _ => ?_
    ring

theorem dealPoly_eval (s : ZMod L) {t : ℕ} (ht : 1 ≤ t) (a : Fin (t - 1) → ZMod L) {S : Finset UInt8} (i : S) :
    (dealPoly s t (drawn a)).eval (point i) = s + mask S a i := by
  unfold dealPoly mask
  rw [polyOf_eval_cons, polyOf_eval_sum, Finset.mul_sum, List.length_map, List.length_range,
    Finset.sum_range (fun j => point i * (((List.range (t - 1)).map fun j => (drawn a j).val).getD j 0 * point i ^ j))]
  congr 1
  refine Finset.sum_congr rfl fun j _ => ?_
  rw [List.getD_eq_getElem?_getD, List.getElem?_map, List.getElem?_range j.2, Option.map_some, Option.getD_some,
    drawn_lt, B32.val_ofZ]
  ring

/-- **C11.** A coalition of `t - 1` receivers sees almost the same of the sharing of one secret and of any other one. -/
theorem C11_secrecy_statistical (s s' : B32) (hs : s.Canonical) (hs' : s'.Canonical) (n t : UInt8) (out : List Share)
    (ht : 2 ≤ t.toNat) (hn : n.toNat ≤ 254) (ho : n.toNat ≤ out.length) (S : Finset UInt8)
    (hS : ∀ i ∈ S, 1 ≤ i.toNat ∧ i.toNat ≤ n.toNat) (hcard : S.card = t.toNat - 1) :
    Close (m := t.toNat - 1) (fun a (i : S) => shareOf (Toprf.createShares s n t (drawn a) out) i)
      (fun a (i : S) => shareOf (Toprf.createShares s' n t (drawn a) out) i) := by
  have h0 : (0 : UInt8) ∉ S := fun h => by have := hS 0 h; simp at this
  obtain ⟨φ, hφ⟩ := exists_pairing h0 hcard s.val s'.val
  refine ⟨φ, fun a => funext fun i => ?_, card_lost φ⟩
  beta_reduce
  rw [shareOf_createShares s' (Toprf.NoOverflow.of_canonical hs') n t _ out ht hn ho i (hS i i.2),
    shareOf_createShares s (Toprf.NoOverflow.of_canonical hs) n t _ out ht hn ho i (hS i i.2), dealPoly_eval _ (by omega),
    dealPoly_eval _ (by omega), hφ a i]

/-! ## C75 -/

variable (G : Type) [Ristretto G]

/-- The coefficients of a dealer with the secret `s` -/
noncomputable def withSecret (s : B32) {m : ℕ} (a : Fin m → ZMod L) : ℕ → B32
  | 0 => s
  | j + 1 => drawn a j

/-- The share for receiver `i` of a dealing -/
def dealtTo (r : C (Int × List B32 × List Share)) (i : UInt8) : Option Share :=
  match r with
  | .ok (_, _, shares) => shares[i.toNat - 1]?
  | .ub _ => none

theorem dealtTo_start (n t : UInt8) (rnd : ℕ → B32) (cs0 : List B32) (sh0 : List Share) (ht : 1 ≤ t.toNat) (hn : n.toNat ≤ 254)
    (hc : cs0.length = t.toNat) (ho : sh0.length = n.toNat) (hr : (rnd 0).Canonical) (i : UInt8)
    (hi : 1 ≤ i.toNat ∧ i.toNat ≤ n.toNat) :
    dealtTo (Dkg.start G true n t rnd cs0 sh0) i = some ⟨i, B32.ofZ ((Dkg.dealer t.toNat rnd).eval (point i))⟩ := by
  rw [Dkg.start_eq G n t rnd cs0 sh0 ht hn (by omega) (by omega) hr]
  have e1 : (1 + (i.toNat - 1)) = i.toNat := by omega
  show (_ : List Share)[i.toNat - 1]? = _
  rw [List.getElem?_append_left (by simp; omega), List.getElem?_map, List.getElem?_range' (by omega)]
  simp [e1, Dkg.dealt]

theorem dealer_withSecret (s : B32) {t : ℕ} (ht : 1 ≤ t) (a : Fin (t - 1) → ZMod L) :
    Dkg.dealer t (withSecret s a) = dealPoly s.val t (drawn a) := by
  obtain ⟨m, rfl⟩ := Nat.exists_eq_add_of_le' ht
  unfold Dkg.dealer dealPoly
  rw [List.range_succ_eq_map, List.map_cons, List.map_map]
  rfl

/-- **C75.** The commitments of a dealer tell a coalition of `t - 1` receivers nothing but the first one: the others can be
computed from it and the shares of the coalition. -/
theorem C75_commitments_simulated (n t : UInt8) (rnd : ℕ → B32) (hr : ∀ k, (rnd k).Canonical) (cs0 : List B32)
    (sh0 : List Share) (ht : 1 ≤ t.toNat) (hn : n.toNat ≤ 254) (hc : cs0.length = t.toNat) (ho : sh0.length = n.toNat)
    (S : Finset UInt8) (hS : ∀ i ∈ S, 1 ≤ i.toNat ∧ i.toNat ≤ n.toNat) (hcard : S.card = t.toNat - 1) :
    ∃ cs shares, Dkg.start G true n t rnd cs0 sh0 = .ok (0, cs, shares) ∧ cs[0]? = some (enc ((rnd 0).val • (base : G))) ∧
      cs = (List.range t.toNat).map fun k => enc (simulate G S ((rnd 0).val • base)
        (fun i => (shares.getD (i.toNat - 1) ⟨0, zero32⟩).value.val) k) := by
  classical
  have h0 : (0 : UInt8) ∉ S := fun h => by have := hS 0 h; simp at this
  have hp0 : point 0 = 0 := by simp [point]
  have hstart := Dkg.start_eq G n t rnd cs0 sh0 ht hn (by omega) (by omega) (hr 0)
  refine ⟨_, _, hstart, ?_, ?_⟩
  · rw [List.getElem?_append_left (by simp; omega), List.getElem?_map, List.getElem?_range (by omega), Option.map_some,
      maskedVal_canonical (hr 0)]
  · rw [List.drop_eq_nil_of_le (by omega), List.append_nil]
    refine List.map_congr_left fun k hk => ?_
    rw [List.mem_range] at hk
    congr 1
    have hinj : Set.InjOn point (↑(insert 0 S) : Set UInt8) := fun a _ b _ h => point_inj h
    have hf := Lagrange.eq_interpolate (f := Dkg.dealer t.toNat rnd) hinj (by
      rw [Finset.card_insert_of_notMem h0, hcard, Nat.sub_add_cancel ht]
      exact Dkg.dealer_degree _ _)
    have hk' : (Dkg.dealer t.toNat rnd).coeff k = (rnd k).val := by
      unfold Dkg.dealer
      rw [polyOf_coeff, List.getD_eq_getElem?_getD, List.getElem?_map, List.getElem?_range hk, Option.map_some,
        Option.getD_some]
    have h00 : (Dkg.dealer t.toNat rnd).eval 0 = (rnd 0).val := by
      obtain ⟨m, hm⟩ := Nat.exists_eq_add_of_le' ht
      unfold Dkg.dealer
      rw [hm, List.range_succ_eq_map, List.map_cons, polyOf_eval_zero]
    rw [maskedVal_canonical (hr k), ← hk', hf, Lagrange.interpolate_apply, finset_sum_coeff, Finset.sum_smul]
    unfold simulate
    refine Finset.sum_congr rfl fun i hi => ?_
    rw [coeff_C_mul, mul_comm, mul_smul]
    congr 1
    split
    · rename_i hi0
      rw [hi0, hp0, h00]
    · rename_i hi0
      have hiS := (Finset.mem_insert.1 hi).resolve_left hi0
      have := dealtTo_start G n t rnd cs0 sh0 ht hn hc ho (hr 0) i (hS i hiS)
      rw [hstart] at this
      change (_ : List Share)[i.toNat - 1]? = _ at this
      beta_reduce
      rw [List.getD_eq_getElem?_getD, this, Option.getD_some, B32.val_ofZ]

/-- **C75.** The shares that a coalition of `t - 1` receivers gets from a dealer are almost the same for all secrets. -/
theorem C75_shares_statistical (s s' : B32) (hs : s.Canonical) (hs' : s'.Canonical) (n t : UInt8) (cs0 : List B32)
    (sh0 : List Share) (ht : 1 ≤ t.toNat) (hn : n.toNat ≤ 254) (hc : cs0.length = t.toNat) (ho : sh0.length = n.toNat)
    (S : Finset UInt8) (hS : ∀ i ∈ S, 1 ≤ i.toNat ∧ i.toNat ≤ n.toNat) (hcard : S.card = t.toNat - 1) :
    Close (m := t.toNat - 1) (fun a (i : S) => dealtTo (Dkg.start G true n t (withSecret s a) cs0 sh0) i)
      (fun a (i : S) => dealtTo (Dkg.start G true n t (withSecret s' a) cs0 sh0) i) := by
  have h0 : (0 : UInt8) ∉ S := fun h => by have := hS 0 h; simp at this
  obtain ⟨φ, hφ⟩ := exists_pairing h0 hcard s.val s'.val
  refine ⟨φ, fun a => funext fun i => ?_, card_lost φ⟩
  beta_reduce
  rw [dealtTo_start G n t _ cs0 sh0 ht hn hc ho hs' i (hS i i.2), dealtTo_start G n t _ cs0 sh0 ht hn hc ho hs i (hS i i.2),
    dealer_withSecret _ ht, dealer_withSecret _ ht, dealPoly_eval _ ht, dealPoly_eval _ ht, hφ a i]

/-- Receivers 2 and 5 of a 3-of-5 dealing with coefficients 1, 2, 3, … -/
example : (∀ k : ℕ, (B32.ofZ ((k + 1 : ℕ) : ZMod L)).Canonical) ∧ 1 ≤ (3 : UInt8).toNat ∧
    (List.replicate 3 zero32).length = (3 : UInt8).toNat ∧
    (∀ i ∈ ({2, 5} : Finset UInt8), 1 ≤ i.toNat ∧ i.toNat ≤ (5 : UInt8).toNat) ∧
    ({2, 5} : Finset UInt8).card = (3 : UInt8).toNat - 1 :=
  ⟨fun _ => B32.canonical_ofZ _, by decide, List.length_replicate, by decide, by decide⟩

/-! ## C76 -/

/-- The share for receiver `i` in the outcome of `toprf_mpc_mul_start` -/
def sentTo (r : C (Int × List Share)) (i : UInt8) : Option Share :=
  match r with
  | .ok (_, shares) => shares[i.toNat - 1]?
  | .ub _ => none

/-- **C76.** What a coalition of `t - 1` receivers gets from a peer in a multiplication is almost the same, whatever shares
the peer multiplies. -/
theorem C76_mul_statistical (a b a' b' : Share) (hab : a.index = b.index) (hab' : a'.index = b'.index) (n t : UInt8)
    (out : List Share) (ht : 2 ≤ t.toNat) (htn : t.toNat ≤ n.toNat) (hn : n.toNat ≤ 254) (ho : n.toNat ≤ out.length)
    (S : Finset UInt8) (hS : ∀ i ∈ S, 1 ≤ i.toNat ∧ i.toNat ≤ n.toNat) (hcard : S.card = t.toNat - 1) :
    Close (m := t.toNat - 1) (fun r (i : S) => sentTo (Mpmult.mulStart a b n t (drawn r) out) i)
      (fun r (i : S) => sentTo (Mpmult.mulStart a' b' n t (drawn r) out) i) := by
  have key : ∀ (a b : Share) (_ : a.index = b.index) (rnd : ℕ → B32) (i : UInt8), sentTo (Mpmult.mulStart a b n t rnd out) i =
      shareOf (Toprf.createShares (scalarMul a.value b.value) n t rnd out) i := by
    intro a b h rnd i
    unfold Mpmult.mulStart
    rw [if_neg (by
      rintro (h' | h' | h')
      · exact h' h
      · have := UInt8.lt_iff_toNat_lt.1 h'
        omega
      · rw [h'] at ht
        exact absurd ht (by decide))]
    cases Toprf.createShares (scalarMul a.value b.value) n t rnd out <;> rfl
  have hcan := scalarMul_canonical
  obtain ⟨φ, h1, h2⟩ := C11_secrecy_statistical (scalarMul a.value b.value) (scalarMul a'.value b'.value) (hcan _ _) (hcan _ _)
    n t out ht hn ho S hS hcard
  refine ⟨φ, fun r => funext fun i => ?_, h2⟩
  beta_reduce
  rw [key a b hab, key a' b' hab']
  exact congrFun (h1 r) i

/-- Receivers 1 and 3 in a multiplication with 5 peers and threshold 3 -/
example : (⟨4, B32.ofNat 10⟩ : Share).index = (⟨4, B32.ofNat 20⟩ : Share).index ∧ 2 ≤ (3 : UInt8).toNat ∧
    (3 : UInt8).toNat ≤ (5 : UInt8).toNat ∧ (∀ i ∈ ({1, 3} : Finset UInt8), 1 ≤ i.toNat ∧ i.toNat ≤ (5 : UInt8).toNat) ∧
    ({1, 3} : Finset UInt8).card = (3 : UInt8).toNat - 1 := by decide

/-! ## C77 -/

/-- **C77.** The answers of servers with `toprf_3hashtdh` tell no more than their combination: for any other shares `f'` of
the same key there is exactly one choice `g'` of the shares of zero that explains the same answers, and with it the servers
give the same answers (or fail, for a share that is 0). -/
theorem C77_answers_hide [Hashes] (f f' g : (ZMod L)[X]) (idx : List UInt8) (A : G) (ssid : Bytes) (hl : ssid.length ≤ 65535)
    (hH : tdhPoint G (enc A) ssid ≠ 0) (hn : idx.Nodup) (hf : f.degree < idx.length) (hf' : f'.degree < idx.length)
    (hg : g.degree < idx.length) (hff : f'.eval 0 = f.eval 0) (hg0 : g.eval 0 = 0) :
    ∃! g' : (ZMod L)[X], (g'.degree < idx.length ∧ g'.eval 0 = 0) ∧
      ∀ i ∈ idx, f'.eval (point i) • A + g'.eval (point i) • tdhPoint G (enc A) ssid =
          f.eval (point i) • A + g.eval (point i) • tdhPoint G (enc A) ssid ∧
        ∀ (s1 s2 s1' s2' : B32) (b0 b0' beta : Share),
          Toprf.hash3tdh G true s1 s2 ⟨i, B32.ofZ (f.eval (point i))⟩ ⟨i, B32.ofZ (g.eval (point i))⟩ (enc A) ssid
            (UInt16.ofNat ssid.length) b0 = .ok (0, beta) →
          Toprf.hash3tdh G true s1' s2' ⟨i, B32.ofZ (f'.eval (point i))⟩ ⟨i, B32.ofZ (g'.eval (point i))⟩ (enc A) ssid
            (UInt16.ofNat ssid.length) b0' = .ok (0, beta) ∨
          (∃ b, Toprf.hash3tdh G true s1' s2' ⟨i, B32.ofZ (f'.eval (point i))⟩ ⟨i, B32.ofZ (g'.eval (point i))⟩ (enc A)
            ssid (UInt16.ofNat ssid.length) b0' = .ok (1, b)) ∧
            (f'.eval (point i) = 0 ∨ g'.eval (point i) = 0) := by
  obtain ⟨a, ha⟩ := exists_smul_base A
  obtain ⟨h, hh⟩ := exists_smul_base (tdhPoint G (enc A) ssid)
  have hne : h ≠ 0 := fun e => hH (by rw [hh, e, zero_smul])
  have hsplit : ∀ g' : (ZMod L)[X], ∀ i : UInt8, f'.eval (point i) • A + g'.eval (point i) • tdhPoint G (enc A) ssid =
      f.eval (point i) • A + g.eval (point i) • tdhPoint G (enc A) ssid ↔
      g'.eval (point i) = (g + Polynomial.C (a / h) * (f - f')).eval (point i) := by
    intro g' i
    rw [hh]
    conv_lhs => rw [ha]
    simp only [smul_smul, ← add_smul, eval_add, eval_mul, eval_C, eval_sub]
    constructor
    · intro e
      have := smul_base_inj e
      field_simp
      linear_combination this
    · intro e
      rw [e]
      congr 1
      field_simp
      ring
  have hdeg : (g + Polynomial.C (a / h) * (f - f')).degree < idx.length := by
    rw [← mem_degreeLT] at hf hf' hg ⊢
    rw [C_mul']
    exact Submodule.add_mem _ hg (Submodule.smul_mem _ _ (Submodule.sub_mem _ hf hf'))
  refine ⟨g + Polynomial.C (a / h) * (f - f'), ⟨⟨hdeg, ?_⟩, fun i hi => ?_⟩, ?_⟩
  · rw [eval_add, eval_mul, eval_sub, hff, hg0, sub_self, mul_zero, add_zero]
  · have e := (hsplit (g + Polynomial.C (a / h) * (f - f')) i).2 rfl
    refine ⟨e, fun s1 s2 s1' s2' b0 b0' beta hb => ?_⟩
    have hb' := hash3tdh_ok G s1 s2 _ _ A ssid hl b0 beta hb
    rcases hash3tdh_cases G s1' s2' ⟨i, B32.ofZ (f'.eval (point i))⟩
        ⟨i, B32.ofZ ((g + Polynomial.C (a / h) * (f - f')).eval (point i))⟩ A ssid hl b0' with ⟨-, -, h3⟩ | ⟨h1, b, h3⟩
    · left
      rw [h3, hb']
      simp only [maskedVal_ofZ]
      rw [e]
    · right
      refine ⟨⟨b, h3⟩, ?_⟩
      simp only [maskedVal_ofZ] at h1
      by_contra hc
      push_neg at hc
      refine h1 ⟨fun hz => ?_, fun hz => ?_⟩
      · rcases smul_eq_zero.1 hz with hz | hz
        · exact hc.1 hz
        · have := (C19_3hashtdh_iff G s1 s2 _ _ A ssid hl b0).1 ⟨beta, hb⟩
          rw [hz, smul_zero] at this
          exact this.1 rfl
      · rcases smul_eq_zero.1 hz with hz | hz
        · exact hc.2 hz
        · exact hH hz
  · rintro g' ⟨⟨h1, -⟩, h2⟩
    refine Polynomial.eq_of_degrees_lt_of_eval_index_eq (v := point) idx.toFinset (fun _ _ _ _ h => point_inj h)
      (by rwa [List.toFinset_card_of_nodup hn]) (by rwa [List.toFinset_card_of_nodup hn]) fun i hi => ?_
    exact (hsplit g' i).1 (h2 i (List.mem_toFinset.1 hi)).1

section
attribute [local instance] Ristretto.toy Toy.hashes

/-- The hypotheses hold: two sharings of the key 7 by two servers, and shares of zero. -/
example : tdhPoint (ZMod L) (enc (base : ZMod L)) [1, 2] ≠ 0 ∧ ([1, 2] : List UInt8).Nodup ∧
    (Polynomial.C 7 + X : (ZMod L)[X]).degree < ([1, 2] : List UInt8).length ∧
    (Polynomial.C 7 + Polynomial.C 3 * X : (ZMod L)[X]).degree < ([1, 2] : List UInt8).length ∧
    (Polynomial.C 7 + X : (ZMod L)[X]) ≠ Polynomial.C 7 + Polynomial.C 3 * X ∧
    (Polynomial.C 7 + X : (ZMod L)[X]).eval 0 = (Polynomial.C 7 + Polynomial.C 3 * X : (ZMod L)[X]).eval 0 ∧
    (X : (ZMod L)[X]).degree < ([1, 2] : List UInt8).length ∧ (X : (ZMod L)[X]).eval 0 = 0 := by
  have h3 : (3 : ZMod L) ≠ 1 := fun h => by
    have := Toy.natCast_ne_zero (n := 2) (by decide) (by decide)
    exact this (by push_cast; linear_combination h)
  refine ⟨Toy.hashToGroup_ne _, by decide, ?_, ?_, fun h => ?_, by simp, ?_, by simp⟩
  · rw [add_comm]; exact lt_of_eq_of_lt (degree_X_add_C _) (by decide)
  · rw [add_comm]; exact lt_of_le_of_lt degree_linear_le (by decide)
  · have := congrArg (fun p => p.coeff 1) h
    simp at this
    exact h3 this.symm
  · exact lt_of_le_of_lt degree_X_le (by decide)

end

end Verif.Props
