import Verif.Proofs.Mpmult
import Verif.Props.Dkg

/-!
# Properties C29–C31: multiparty multiplication (`/repo/src/mpmult.c`)
-/

set_option linter.unusedSectionVars false

namespace Verif.Props

open Spec Polynomial Verif.Mpmult

/-! ## C29 -/

/-- The residues of a matrix of scalars. -/
def residues {n : ℕ} (a : Mat n) : Matrix (Fin n) (Fin n) (ZMod L) := Matrix.of fun i j => (a i j).val

/-- **C29.** For distinct indexes the result is the two-sided inverse of the Vandermonde matrix of the indexes, whatever
the output buffer contained. -/
theorem C29_inverted_vandermonde {n : ℕ} [NeZero n] (indexes : Fin n → UInt8) (h : Function.Injective indexes)
    (x0 : Mat n) :
    residues (invertedVDM indexes x0) * Matrix.vandermonde (fun i => point (indexes i)) = 1 ∧
    Matrix.vandermonde (fun i => point (indexes i)) * residues (invertedVDM indexes x0) = 1 := by
  have key : Matrix.vandermonde (fun i => point (indexes i)) * residues (invertedVDM indexes x0) = 1 := by
    ext r c
    rw [Matrix.mul_apply, Matrix.one_apply]
    have := invert_spec (genVDM indexes) x0 (fun r l => by rw [genVDM_eq]; exact B32.canonical_ofZ _)
      (vdm_injective indexes h) (fun i => ⟨0, by rw [genVDM_eq, B32.val_ofZ]; simp⟩) r c
    simp only [genVDM_eq, B32.val_ofZ] at this
    simpa [Matrix.vandermonde_apply, residues, invertedVDM, point] using this
  exact ⟨mul_eq_one_comm.1 key, key⟩

/-- **C29.** Its first row consists of the Lagrange coefficients at 0. -/
theorem C29_first_row {n : ℕ} [NeZero n] (indexes : Fin n → UInt8) (h : Function.Injective indexes) (x0 : Mat n)
    (i : Fin n) : (invertedVDM indexes x0 0 i).val = lagrange (List.ofFn indexes) (indexes i) := by
  obtain ⟨h1, h2⟩ := C29_inverted_vandermonde indexes h x0
  set V := Matrix.vandermonde (fun i => point (indexes i)) with hV
  have hl : Matrix.vecMul (fun i => lagrange (List.ofFn indexes) (indexes i)) V = Pi.single 0 1 := by
    funext k
    have := lagrange_sum (List.ofFn indexes) (List.nodup_ofFn.2 h) (X ^ k.1) (by
      rw [degree_X_pow, List.length_ofFn]; exact_mod_cast k.2)
    rw [List.map_ofFn, List.sum_ofFn] at this
    simp only [eval_pow, eval_X, Function.comp] at this
    have e : Matrix.vecMul (fun i => lagrange (List.ofFn indexes) (indexes i)) V k =
        ∑ i, lagrange (List.ofFn indexes) (indexes i) * point (indexes i) ^ k.1 := rfl
    rw [e, this]
    by_cases hk : k = 0
    · subst hk; simp
    · rw [Pi.single_eq_of_ne hk, zero_pow]
      intro h0
      exact hk (Fin.ext h0)
  have hx : Matrix.vecMul (fun i => (invertedVDM indexes x0 0 i).val) V = Pi.single 0 1 := by
    funext k
    have := congrFun (congrFun h1 0) k
    rw [Matrix.mul_apply, Matrix.one_apply] at this
    have e : Matrix.vecMul (fun i => (invertedVDM indexes x0 0 i).val) V k =
        ∑ j, residues (invertedVDM indexes x0) 0 j * V j k := rfl
    rw [e, this, Pi.single_apply]
    simp only [eq_comm]
  have : (fun i => (invertedVDM indexes x0 0 i).val) = fun i => lagrange (List.ofFn indexes) (indexes i) := by
    have e : ∀ v : Fin n → ZMod L, v = Matrix.vecMul (Matrix.vecMul v V) (residues (invertedVDM indexes x0)) := by
      intro v
      rw [Matrix.vecMul_vecMul, h2, Matrix.vecMul_one]
    rw [e (fun i => (invertedVDM indexes x0 0 i).val), e (fun i => lagrange (List.ofFn indexes) (indexes i)), hl, hx]
  exact congrFun this i

example : Function.Injective (![1, 7, 0, 255] : Fin 4 → UInt8) := by decide

/-! ## C30 -/

theorem foldl_scalarAdd {α : Type} (g : α → B32) (hg : ∀ x, (g x).Canonical) : ∀ (l : List α) (v : B32), v.Canonical →
    l.foldl (fun v x => scalarAdd v (g x)) v = B32.ofZ (v.val + (l.map fun x => (g x).val).sum)
  | [], v, hv => by simp [B32.ofZ_val hv]
  | x :: l, v, hv => by
    rw [List.foldl_cons, foldl_scalarAdd g hg l _ (scalarAdd_canonical _ _), scalarAdd_eq hv (hg x), B32.val_ofZ,
      List.map_cons, List.sum_cons, add_assoc]

/-- The combination in `toprf_mpc_mul_finish` is a Lagrange combination. -/
theorem mulFinish_eq (scratch : B32) (received : List (UInt8 × Share)) (peer : UInt8) (h0 : received ≠ [])
    (hn : (received.map (·.1)).Nodup) : mulFinish scratch received peer = .ok ⟨peer, B32.ofZ
      (received.map fun p => p.2.value.val * lagrange (received.map (·.1)) p.1).sum⟩ := by
  unfold mulFinish
  have hl : received.length ≠ 0 := by simpa using h0
  rw [dif_neg hl]
  have : NeZero received.length := ⟨hl⟩
  have hinj : Function.Injective fun i : Fin received.length => (received.get i).1 := by
    intro a b hab
    have := List.nodup_iff_injective_get.1 hn
    have h2 := @this ⟨a.1, by simp⟩ ⟨b.1, by simp⟩ (by simpa using hab)
    exact Fin.ext (by simpa using congrArg Fin.val h2)
  have hof : List.ofFn (fun i : Fin received.length => (received.get i).1) = received.map (·.1) := by
    apply List.ext_getElem
    · simp
    · intro i h1 h2; simp
  dsimp only
  rw [foldl_scalarAdd _ (fun x => scalarMul_canonical _ _) _ _ zero32_canonical, zero32_val, zero_add]
  congr 3
  have : ∀ i : Fin received.length, (scalarMul (received.get i).2.value
      (invertedVDM (fun i : Fin received.length => (received.get i).1) (fun _ _ => scratch) 0 i)).val =
      (fun p : UInt8 × Share => p.2.value.val * lagrange (received.map (·.1)) p.1) (received.get i) := by
    intro i
    rw [scalarMul_eq, B32.val_ofZ, C29_first_row _ hinj, hof]
  simp only [this]
  rw [show (fun x : Fin received.length => (received.get x).2.value.val * lagrange (received.map (·.1)) (received.get x).1) =
    (fun p : UInt8 × Share => p.2.value.val * lagrange (received.map (·.1)) p.1) ∘ received.get from rfl,
    ← List.map_map]
  congr 2
  apply List.ext_getElem
  · simp
  · intro i h1 h2; simp

/-- **C30.** Shares of `fa(0)` and `fb(0)` of degree below `t`; at least `2t - 1` shareholders multiply theirs and deal
the product among `peers` peers with threshold `t`. Then what the peers compute lies on one polynomial of degree below
`t` whose value at 0 is the product of the secrets. -/
theorem C30_mpc_mul (fa fb : (ZMod L)[X]) (t peers : UInt8) (ht : 2 ≤ t.toNat) (htp : t.toNat ≤ peers.toNat)
    (hp : peers.toNat ≤ 254) (hfa : fa.degree < t.toNat) (hfb : fb.degree < t.toNat)
    (dealers : List (Share × Share × (ℕ → B32))) (hidx : (dealers.map (·.1.index)).Nodup)
    (hd : ∀ d ∈ dealers, d.1.index = d.2.1.index ∧ OnPoly fa d.1 ∧ OnPoly fb d.2.1)
    (hlen : 2 * (t.toNat - 1) + 1 ≤ dealers.length) (out : List Share) (hout : out.length = peers.toNat)
    (deals : List (List Share))
    (hdeals : List.Forall₂ (fun d sh => mulStart d.1 d.2.1 peers t d.2.2 out = .ok (0, sh)) dealers deals) :
    ∃ h : (ZMod L)[X], h.degree < t.toNat ∧ h.eval 0 = fa.eval 0 * fb.eval 0 ∧
      ∀ (j : UInt8) (scratch : B32), 1 ≤ j.toNat → j.toNat ≤ peers.toNat →
        ∃ s, mulFinish scratch
          (List.zipWith (fun d sh => (d.1.index, sh.getD (j.toNat - 1) ⟨0, zero32⟩)) dealers deals) j = .ok s ∧
          s.index = j ∧ OnPoly h s := by
  -- what one dealer deals
  have hone : ∀ d ∈ dealers, ∃ (g : (ZMod L)[X]) (sh : List Share), mulStart d.1 d.2.1 peers t d.2.2 out = .ok (0, sh) ∧
      g.degree < t.toNat ∧ g.eval 0 = (fa * fb).eval (point d.1.index) ∧
      ∀ j : UInt8, 1 ≤ j.toNat → j.toNat ≤ peers.toNat → OnPoly g (sh.getD (j.toNat - 1) ⟨0, zero32⟩) ∧
        (sh.getD (j.toNat - 1) ⟨0, zero32⟩).index = j := by
    intro d hdm
    obtain ⟨h1, h2, h3⟩ := hd d hdm
    obtain ⟨g, sh, hc1, hc2, hc3, hc4, hc5, hc6⟩ := C09_create_shares (scalarMul d.1.value d.2.1.value)
      (Toprf.NoOverflow.of_canonical (scalarMul_canonical _ _)) peers t d.2.2 out ht hp (by omega)
    rw [List.drop_of_length_le (by omega), List.append_nil] at hc1
    refine ⟨g, sh, ?_, hc2, ?_, ?_⟩
    · unfold mulStart
      rw [if_neg, hc1]
      · rfl
      · rintro (h | h | h)
        · exact h h1
        · have : peers.toNat < t.toNat := h
          omega
        · rw [h] at ht; simp at ht
    · rw [hc3, scalarMul_eq, B32.val_ofZ, h2.2, h3.2, ← h1, eval_mul]
    · intro j hj1 hj2
      have hmem : j.toNat - 1 < sh.length := by
        have := congrArg List.length hc5
        rw [List.length_map, List.length_range'] at this
        omega
      have hg : sh.getD (j.toNat - 1) ⟨0, zero32⟩ = sh[j.toNat - 1] := by
        rw [List.getD_eq_getElem?_getD, List.getElem?_eq_getElem hmem]; rfl
      rw [hg]
      refine ⟨hc6 _ (List.getElem_mem hmem), ?_⟩
      have := congrArg (fun l => l[j.toNat - 1]?) hc5
      simp only [List.getElem?_map, List.getElem?_eq_getElem hmem, Option.map_some] at this
      rw [List.getElem?_range' (by omega)] at this
      simp only [Option.some.injEq] at this
      apply UInt8.toNat_inj.1
      omega
  choose! g sh hg using hone
  have hdl : deals = dealers.map sh := by
    clear hlen hidx
    induction hdeals with
    | nil => rfl
    | @cons d s ds ss hds _ ih =>
      rw [List.map_cons, ← ih (fun d hm => hd d (List.mem_cons_of_mem _ hm)) (fun d hm => hg d (List.mem_cons_of_mem _ hm))]
      have := (hg d List.mem_cons_self).1
      rw [hds] at this
      simp only [C.ok.injEq, Prod.mk.injEq, true_and] at this
      rw [this]
  set idxs := dealers.map (·.1.index) with hidxs
  refine ⟨(dealers.map fun d => Polynomial.C (lagrange idxs d.1.index) * g d).sum, ?_, ?_, ?_⟩
  · apply degree_list_sum
    intro f hf
    rw [List.mem_map] at hf
    obtain ⟨d, hdm, rfl⟩ := hf
    rw [← smul_eq_C_mul]
    exact lt_of_le_of_lt (degree_smul_le _ _) (hg d hdm).2.1
  · rw [eval_list_sum, List.map_map]
    have e : dealers.map ((fun f => eval 0 f) ∘ fun d => Polynomial.C (lagrange idxs d.1.index) * g d) =
        dealers.map ((fun i => lagrange idxs i * (fa * fb).eval (point i)) ∘ fun d => d.1.index) := by
      apply List.map_congr_left
      intro d hdm
      simp only [Function.comp, eval_mul, eval_C]
      rw [(hg d hdm).2.2.1, eval_mul]
    rw [e, ← List.map_map, lagrange_sum idxs hidx (fa * fb), eval_mul]
    have hl : idxs.length = dealers.length := by simp [hidxs]
    rw [hl]
    rcases eq_or_ne fa 0 with h | h
    · rw [h, zero_mul, degree_zero]; exact WithBot.bot_lt_coe _
    · rcases eq_or_ne fb 0 with h' | h'
      · rw [h', mul_zero, degree_zero]; exact WithBot.bot_lt_coe _
      · rw [degree_mul, degree_eq_natDegree h, degree_eq_natDegree h']
        rw [degree_eq_natDegree h] at hfa
        rw [degree_eq_natDegree h'] at hfb
        have a1 : fa.natDegree < t.toNat := by exact_mod_cast hfa
        have a2 : fb.natDegree < t.toNat := by exact_mod_cast hfb
        have a3 : fa.natDegree + fb.natDegree < dealers.length := by omega
        exact_mod_cast a3
  · intro j scratch hj1 hj2
    have hz : List.zipWith (fun d sh => (d.1.index, sh.getD (j.toNat - 1) ⟨0, zero32⟩)) dealers deals =
        dealers.map fun d => (d.1.index, (sh d).getD (j.toNat - 1) ⟨0, zero32⟩) := by
      rw [hdl, List.zipWith_map_right, List.zipWith_self]
    rw [hz]
    have hm : (dealers.map fun d => (d.1.index, (sh d).getD (j.toNat - 1) ⟨0, zero32⟩)).map (·.1) = idxs := by
      rw [List.map_map]; rfl
    rw [mulFinish_eq scratch _ j (by
      intro h
      rw [List.map_eq_nil_iff] at h
      rw [h] at hlen
      simp at hlen) (by rw [hm]; exact hidx)]
    refine ⟨_, rfl, rfl, B32.canonical_ofZ _, ?_⟩
    rw [B32.val_ofZ, hm, List.map_map, eval_list_sum, List.map_map]
    congr 1
    apply List.map_congr_left
    intro d hdm
    have h4 := ((hg d hdm).2.2.2 j hj1 hj2).1.2
    have h5 := ((hg d hdm).2.2.2 j hj1 hj2).2
    simp only [Function.comp, eval_mul, eval_C]
    rw [h4, h5, mul_comm]

/-- Three dealers with threshold 2, sharings `5 + x` and `6 + x`: the hypotheses can be met. -/
example : ∃ (deals : List (List Share)),
    List.Forall₂ (fun d sh => mulStart d.1 d.2.1 4 2 d.2.2 (List.replicate 4 ⟨0, zero32⟩) = .ok (0, sh))
      ([1, 2, 4].map fun i : UInt8 => ((⟨i, B32.ofZ (5 + point i)⟩ : Share), (⟨i, B32.ofZ (6 + point i)⟩ : Share),
        fun _ : ℕ => B32.ofZ 1)) deals := by
  have h : ∀ i : UInt8, ∃ sh, mulStart ⟨i, B32.ofZ (5 + point i)⟩ ⟨i, B32.ofZ (6 + point i)⟩ 4 2 (fun _ => B32.ofZ 1)
      (List.replicate 4 ⟨0, zero32⟩) = .ok (0, sh) := by
    intro i
    obtain ⟨sh, h⟩ := C21_create_shares_safe_partial (scalarMul (B32.ofZ (5 + point i)) (B32.ofZ (6 + point i))) 4 2
      (fun _ => B32.ofZ 1) (List.replicate 4 ⟨0, zero32⟩) (by decide) (by decide) List.length_replicate
    refine ⟨sh, ?_⟩
    unfold mulStart
    rw [if_neg, h]
    · rfl
    · rintro (h | h | h)
      · exact h rfl
      · exact absurd h (by decide)
      · exact absurd h (by decide)
  choose sh hsh using h
  exact ⟨[sh 1, sh 2, sh 4], .cons (hsh 1) (.cons (hsh 2) (.cons (hsh 4) .nil))⟩

/-! ## C31 -/

/-- **C31, as far as it holds.** For up to 254 peers and thresholds other than 1 the call never runs into undefined
behaviour. It returns 1 and leaves the buffer alone exactly if the indexes differ, the threshold is 0 or exceeds the
number of peers; otherwise it returns 0 and the shares lie on a polynomial of degree below the threshold through the
product. Missing: threshold 1 and 255 peers, for which the property is false (next theorem). -/
theorem C31_mul_start_partial (a b : Share) (peers t : UInt8) (rnd : ℕ → B32) (out : List Share) (ht : t.toNat ≠ 1)
    (hp : peers.toNat ≤ 254) (hout : out.length = peers.toNat) :
    (mulStart a b peers t rnd out = .ok (1, out) ↔ a.index ≠ b.index ∨ t = 0 ∨ peers < t) ∧
    (¬ (a.index ≠ b.index ∨ t = 0 ∨ peers < t) → ∃ (f : (ZMod L)[X]) (shares : List Share),
      mulStart a b peers t rnd out = .ok (0, shares) ∧ f.degree < t.toNat ∧
      f.eval 0 = a.value.val * b.value.val ∧ shares.map (·.index.toNat) = List.range' 1 peers.toNat ∧
      ∀ s ∈ shares, OnPoly f s) := by
  have h2 : ¬ (a.index ≠ b.index ∨ t = 0 ∨ peers < t) → ∃ (f : (ZMod L)[X]) (shares : List Share),
      mulStart a b peers t rnd out = .ok (0, shares) ∧ f.degree < t.toNat ∧
      f.eval 0 = a.value.val * b.value.val ∧ shares.map (·.index.toNat) = List.range' 1 peers.toNat ∧
      ∀ s ∈ shares, OnPoly f s := by
    intro hn
    rw [not_or, not_or] at hn
    obtain ⟨h1, h2, h3⟩ := hn
    have ht0 : t.toNat ≠ 0 := by
      intro h
      apply h2
      apply UInt8.toNat_inj.1
      simpa using h
    obtain ⟨g, sh, hc1, hc2, hc3, hc4, hc5, hc6⟩ := C09_create_shares (scalarMul a.value b.value)
      (Toprf.NoOverflow.of_canonical (scalarMul_canonical _ _)) peers t rnd out (by omega) hp (by omega)
    rw [List.drop_of_length_le (by omega), List.append_nil] at hc1
    refine ⟨g, sh, ?_, hc2, by rw [hc3, scalarMul_eq, B32.val_ofZ], hc5, hc6⟩
    unfold mulStart
    rw [if_neg, hc1]
    · rfl
    · rintro (h | h | h)
      · exact h1 h
      · exact h3 h
      · exact h2 h
  refine ⟨⟨fun h => ?_, fun h => ?_⟩, h2⟩
  · by_contra hn
    obtain ⟨f, shares, h', _⟩ := h2 hn
    rw [h] at h'
    simp at h'
  · unfold mulStart
    rw [if_pos]
    tauto

/-- **C31 is violated.** Threshold 1 passes the check but declares an array of size 0; 255 peers make the 8-bit loop
counter wrap around. -/
theorem C31_mul_start_ub (a b : Share) (h : a.index = b.index) (peers t : UInt8) (rnd : ℕ → B32) (out : List Share) :
    (1 ≤ peers.toNat → mulStart a b peers 1 rnd out = .ub .vla) ∧
    (t ≠ 0 → ¬ (mulStart a b 255 t rnd out).Safe) := by
  constructor
  · intro hp
    unfold mulStart
    rw [if_neg]
    · have : Toprf.createShares (scalarMul a.value b.value) peers 1 rnd out = .ub .vla := by
        unfold Toprf.createShares
        rw [if_pos (by decide)]
      rw [this]; rfl
    · rintro (h' | h' | h')
      · exact h' h
      · have : peers.toNat < (1 : UInt8).toNat := h'
        simp at this; omega
      · exact absurd h' (by decide)
  · intro ht
    unfold mulStart
    split
    · rename_i hc
      rcases hc with h' | h' | h'
      · exact absurd h h'
      · have h1 : (255 : UInt8).toNat < t.toNat := h'
        have h2 := t.toNat_lt
        simp at h1; omega
      · exact absurd h' ht
    · cases hcs : Toprf.createShares (scalarMul a.value b.value) 255 t rnd out with
      | ub u => exact C.not_safe_ub _
      | ok s => exact absurd ⟨s, hcs⟩ (C21_create_shares_255 _ _ _ _)

example : (2 : UInt8).toNat ≠ 1 ∧ (5 : UInt8).toNat ≤ 254 ∧
    ¬ ((⟨3, zero32⟩ : Share).index ≠ (⟨3, zero32⟩ : Share).index ∨ (2 : UInt8) = 0 ∨ (5 : UInt8) < 2) :=
  ⟨by decide, by decide, by decide⟩

/-! ## Matrix of size 0 -/

/-- **C29.** `toprf_mpc_mul_finish` without dealers is undefined, with dealers it never is. -/
theorem C29_finish_safe_iff (scratch : B32) (received : List (UInt8 × Share)) (peer : UInt8) :
    (mulFinish scratch received peer).Safe ↔ received ≠ [] := by
  unfold mulFinish
  constructor
  · rintro ⟨a, h⟩ rfl
    simp at h
  · intro h
    rw [dif_neg (by simpa using h)]
    exact C.safe_ok _

end Verif.Props
