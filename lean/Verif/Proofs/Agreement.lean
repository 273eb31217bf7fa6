import Verif.Proofs.PeerCheck
import Verif.Props.PeerRun

/-!
# Histories of finished peers
-/

set_option linter.unusedSectionVars false

namespace Verif.TpDkg

open H Wire Ristretto Spec Polynomial Props

variable [Signing] [Hashes] [NoiseCrypto] [Mac] (G : Type) [Ristretto G] {clock : ℕ → UInt64}

/-- The call made in step `k` of a run without errors. -/
theorem run_split {k : ℕ} (hk : k ≤ 9) (hk7 : k ≠ 7) : ∀ {calls : List PCall} {p p' : PeerState} {rs : List Int},
    p.step ≤ k → peerCalls G clock p calls = .ok (rs, p') → (∀ r ∈ rs, r = 0) → (p'.step = 10 ∨ p'.step = 11) →
    ∃ pre a post q q' o rs0 rs1, calls = pre ++ a :: post ∧ peerCalls G clock p pre = .ok (rs0, q) ∧ (∀ r ∈ rs0, r = 0) ∧
      q.step = k ∧ a.run G clock q = .ok (0, q', o) ∧ q'.step ≠ 100 ∧ peerCalls G clock q' post = .ok (rs1, p') ∧
      (∀ r ∈ rs1, r = 0) ∧ callAt G clock k p calls = some (a.input, o)
  | [], p, p', rs, hp, h, _, hd => by cases h; omega
  | a :: calls, p, p', rs, hp, h, h0, hd => by
    obtain ⟨r, p1, o, rs1, h1, h2, rfl⟩ := peerCalls_cons G h
    have hr : r = 0 := h0 r (by simp)
    subst hr
    have h0' : ∀ r ∈ rs1, r = 0 := fun r hr => h0 r (by simp [hr])
    have hne : p1.step ≠ 100 := by
      intro h100
      cases calls with
      | nil => cases h2; omega
      | cons b calls =>
        obtain ⟨r, p2, o2, rs2, g1, -, rfl⟩ := peerCalls_cons G h2
        exact (peerNext_step G g1).2.1 (by omega) (h0' r (by simp))
    by_cases he : p.step = k
    · refine ⟨[], a, calls, p, p1, o, [], rs1, rfl, rfl, by simp, he, h1, hne, h2, h0', ?_⟩
      unfold callAt
      rw [h1]
      dsimp only
      rw [if_pos he]
    · have s3 := (peerNext_step G h1).2.2 rfl
      have hp1 : p1.step ≤ k := by omega
      obtain ⟨pre, b, post, q, q', o', rs0, rs2, e1, e2, e3, e4, e5, e6, e7, e8, e9⟩ := run_split hk hk7 hp1 h2 h0' hd
      refine ⟨a :: pre, b, post, q, q', o', 0 :: rs0, rs2, by rw [e1]; rfl, ?_, by simpa using e3, e4, e5, e6, e7, e8, ?_⟩
      · unfold peerCalls
        rw [h1, C.ok_bind]
        dsimp only
        rw [e2]
        rfl
      · unfold callAt
        rw [h1]
        dsimp only
        rw [if_neg he]
        exact e9

/-- A run never goes back to a step. -/
theorem peerCalls_past {k : ℕ} (hk : k ≤ 10) : ∀ {calls : List PCall} {p p' : PeerState} {rs : List Int}, k < p.step →
    peerCalls G clock p calls = .ok (rs, p') → k < p'.step
  | [], _, _, _, hp, h => by cases h; exact hp
  | a :: calls, p, p', rs, hp, h => by
    obtain ⟨r, p1, o, rs1, h1, h2, -⟩ := peerCalls_cons G h
    refine peerCalls_past hk ?_ h2
    obtain ⟨s1, -, s3⟩ := peerNext_step G h1
    by_cases h0 : r = 0
    · have := s3 h0; omega
    · have := s1 h0; omega

/-- The index is not changed after the first step. -/
theorem peerCalls_index : ∀ {calls : List PCall} {p p' : PeerState} {rs : List Int}, 0 < p.step →
    peerCalls G clock p calls = .ok (rs, p') → p'.index = p.index
  | [], _, _, _, _, h => by cases h; rfl
  | a :: calls, p, p', rs, hs, h => by
    obtain ⟨r, p1, o, rs1, h1, h2, -⟩ := peerCalls_cons G h
    have : 0 < p1.step := by
      obtain ⟨s1, -, s3⟩ := peerNext_step G h1
      by_cases h0 : r = 0
      · have := s3 h0; omega
      · have := s1 h0; omega
    exact (peerCalls_index this h2).trans (peerNext_keys G h1 (by omega)).1

/-- The received shares are not changed after the step that receives them. -/
theorem peerCalls_xshares : ∀ {calls : List PCall} {p p' : PeerState} {rs : List Int}, 5 < p.step →
    peerCalls G clock p calls = .ok (rs, p') → p'.xshares = p.xshares
  | [], _, _, _, _, h => by cases h; rfl
  | a :: calls, p, p', rs, hs, h => by
    obtain ⟨r, p1, o, rs1, h1, h2, -⟩ := peerCalls_cons G h
    have : 5 < p1.step := by
      obtain ⟨s1, -, s3⟩ := peerNext_step G h1
      by_cases h0 : r = 0
      · have := s3 h0; omega
      · have := s1 h0; omega
    exact (peerCalls_xshares this h2).trans (peerNext_xshares G h1 (by omega))

theorem peerCalls_pwf : ∀ {calls : List PCall} {p p' : PeerState} {rs : List Int}, PWF p →
    peerCalls G clock p calls = .ok (rs, p') → PWF p'
  | [], _, _, _, w, h => by cases h; exact w
  | a :: calls, p, p', rs, w, h => by
    obtain ⟨r, p1, o, rs1, h1, h2, -⟩ := peerCalls_cons G h
    exact peerCalls_pwf (peerNext_pwf G h1 w) h2

/-- What a peer that finished had verified, and the share it computed. -/
theorem finished_checked {h : History} (hf : h.Finished G) : ∃ m7 o7 m8 m9 scratch ret fails len,
    callAt G h.clock 4 h.start h.calls = some (m7, o7) ∧ callAt G h.clock 5 h.start h.calls = some (m8, m9) ∧
    m7.length = 111 + (111 + 32 * h.start.t.toNat) * h.start.n.toNat ∧
    Dkg.verifyCommitments G scratch h.start.n h.start.t h.final.index
      ((List.range h.start.n.toNat).map (commitmentsIn h.start.t.toNat m7)) h.final.xshares
      (List.replicate h.start.n.toNat 0) = .ok (ret, fails, len) ∧ m9[111]? = some len ∧
    ∃ v, Dkg.finish h.start.n h.final.xshares ⟨h.final.index, v⟩ = .ok h.final.share := by
  obtain ⟨clock, p, calls, p'⟩ := h
  obtain ⟨w, first, ⟨rs, hr, h0⟩, done⟩ := hf
  dsimp only at w first hr done ⊢
  -- the call of step 4
  obtain ⟨pre, a, post, q, q', o, rs0, rs1, e1, e2, e3, e4, e5, e6, e7, e8, e9⟩ :=
    run_split G (k := 4) (by decide) (by decide) (by omega) hr h0 done
  obtain ⟨hn, ht, -⟩ := peerCalls_params G e2
  have wq := peerCalls_pwf G w e2
  have s3 := (peerNext_step G e5).2.2 rfl
  have hq' : q'.step = 5 := by omega
  have hh : Peer.handler G clock a.log a.mlock a.scratch a.rnd a.input q.step = Peer.step13 clock a.log a.input := by
    rw [e4]; rfl
  have hw := Peer.com_step13 (clock := clock) (log := a.log) (input := a.input) (s := ⟨q, a.out⟩) wq
  rw [← hh] at hw
  obtain ⟨s, hE | hQ, hs, -⟩ := peerNext_elim G hw e5
  · exact absurd rfl hE
  obtain ⟨hlen, hcom⟩ := hQ
  obtain ⟨hn', ht', -⟩ := peerNext_params G e5
  -- the call of step 5, which is the next one
  obtain ⟨pre5, b, post5, u, u', o5, rs5, rs6, f1, f2, f3, f4, f5, f6, f7, f8, f9⟩ :=
    run_split G (k := 5) (by decide) (by decide) (by omega) e7 e8 done
  have hu : u = q' := by
    cases pre5 with
    | nil => cases f2; rfl
    | cons x pre5 =>
      exfalso
      obtain ⟨r, p1, o1, rs1, g1, g2, rfl⟩ := peerCalls_cons G f2
      have hr0 : r = 0 := f3 r (by simp)
      subst hr0
      have := (peerNext_step G g1).2.2 rfl
      have := peerCalls_past G (k := 5) (by decide) (by omega) g2
      omega
  subst hu
  have hh : Peer.handler G clock b.log b.mlock b.scratch b.rnd b.input u.step =
      Peer.step15 G clock b.log b.scratch b.input := by rw [f4]; rfl
  have hw := Peer.chk_step15 G (clock := clock) (log := b.log) (scratch := b.scratch) (input := b.input) (s := ⟨u, b.out⟩)
  rw [← hh] at hw
  obtain ⟨s', hE | hQ, hs', ho'⟩ := peerNext_elim G hw f5
  · exact absurd rfl hE
  obtain ⟨-, ret, fails, len, hv, hl⟩ := hQ
  have s5 := (peerNext_step G f5).2.2 rfl
  have hx : p'.xshares = s'.ctx.xshares := (peerCalls_xshares G (by omega) f7).trans (by rw [hs']; rfl)
  have hi : p'.index = u.index :=
    (peerCalls_index G (by omega) f7).trans (peerNext_keys G f5 (by omega)).1
  have hcall5 : callAt G clock 5 p calls = some (b.input, o5) := by
    have key : ∀ (pre : List PCall) (p q : PeerState) (rs : List Int) (tail : List PCall), p.step ≤ 4 →
        peerCalls G clock p pre = .ok (rs, q) → (∀ r ∈ rs, r = 0) → q.step ≤ 4 →
        callAt G clock 5 p (pre ++ tail) = callAt G clock 5 q tail := by
      intro pre
      induction pre with
      | nil => intro p q rs tail _ h _ _; cases h; rfl
      | cons x pre ih =>
        intro p q rs tail hp h h0 hq
        obtain ⟨r, p1, o1, rs1, g1, g2, rfl⟩ := peerCalls_cons G h
        have hr0 : r = 0 := h0 r (by simp)
        subst hr0
        have hp1 : p1.step ≤ 4 := by
          by_contra hc
          have := peerCalls_past G (k := 4) (by decide) (by omega) g2
          omega
        rw [List.cons_append]
        rw [callAt, g1]
        dsimp only
        rw [if_neg (by omega)]
        exact ih _ _ _ _ hp1 g2 (fun r hr => h0 r (by simp [hr])) hq
    rw [e1, key _ _ _ _ _ (by omega) e2 e3 (by omega), callAt, e5]
    dsimp only
    rw [if_neg (by omega), f9]
  -- the call of step 9
  obtain ⟨pre9, d, post9, x, x', o9, rs9, rs10, g1, g2, g3, g4, g5, g6, g7, g8, g9⟩ :=
    run_split G (k := 9) (by decide) (by decide) (by omega) f7 f8 done
  have hh : Peer.handler G clock d.log d.mlock d.scratch d.rnd d.input x.step = Peer.step21 clock d.log d.input := by
    rw [g4]; rfl
  have hw := Peer.share_step21 (clock := clock) (log := d.log) (input := d.input) (s := ⟨x, d.out⟩)
  rw [← hh] at hw
  obtain ⟨s9, hE | hQ, hs9, -⟩ := peerNext_elim G hw g5
  · exact absurd rfl hE.1
  have s10 := (peerNext_step G g5).2.2 rfl
  obtain ⟨l1, l2⟩ := peerCalls_late G (by omega) g7
  have hsh : p'.share = s9.ctx.share := by rw [l1, hs9]; rfl
  obtain ⟨n1, -⟩ := peerCalls_params G g2
  obtain ⟨n2, -⟩ := peerNext_params G f5
  have hxx : p'.xshares = x.xshares :=
    (peerCalls_xshares G (by omega) g7).trans (peerNext_xshares G g5 (by omega))
  have hxi : p'.index = x.index := l2.trans (peerNext_keys G g5 (by omega)).1
  refine ⟨a.input, o, b.input, o5, b.scratch, ret, fails, len, e9, hcall5, ?_, ?_, ?_, x.share.value, ?_⟩
  · rw [← hn, ← ht]; exact hlen
  · rw [hn', ht', hn, ht] at hv
    rw [hx, hi, ← hv]
    congr 1
    apply List.map_congr_left
    intro j hj
    have : s.ctx.commitments = u.commitments := by rw [hs]; rfl
    rw [← ht, ← hcom j (by rw [hn]; exact List.mem_range.1 hj), this]
  · rw [ho']; exact hl
  · have := hQ.2.2.2.2
    rw [hsh, hxx, hxi, ← this]
    congr 1
    dsimp only
    rw [n1, n2, hn', hn]

/-! ## The transcript determines the broadcasts -/

/-- The broadcasts of a run without errors, with their lengths. -/
theorem heard_finished : ∀ {calls : List PCall} {p p' : PeerState} {rs : List Int},
    peerCalls G clock p calls = .ok (rs, p') → (∀ r ∈ rs, r = 0) → (p'.step = 10 ∨ p'.step = 11) →
    ∃ m : ℕ → Bytes, heard G clock p calls = ([1, 4, 6].filter (p.step ≤ ·)).map m ∧
      ∀ k ∈ [1, 4, 6], p.step ≤ k → (m k).length = peerInputSize { p with step := k } ∧
        ∃ o, callAt G clock k p calls = some (m k, o)
  | [], p, p', rs, h, _, hd => by
    cases h
    refine ⟨fun _ => [], ?_, fun k hk hp => ?_⟩
    · rw [List.filter_eq_nil_iff.2 (by simp; omega)]
      rfl
    · simp at hk
      omega
  | a :: calls, p, p', rs, h, h0, hd => by
    obtain ⟨r, p1, o, rs1, h1, h2, rfl⟩ := peerCalls_cons G h
    have hr : r = 0 := h0 r (by simp)
    subst hr
    have h0' : ∀ r ∈ rs1, r = 0 := fun r hr => h0 r (by simp [hr])
    obtain ⟨m, e1, e2⟩ := heard_finished h2 h0' hd
    obtain ⟨hn, ht, -⟩ := peerNext_params G h1
    have hs : p.step ≤ 10 := by
      by_contra hc
      exact (peerNext_step G h1).2.1 (by omega) rfl
    have hs3 : p1.step = p.step + 1 ∨ p.step = 6 ∧ p1.step = 8 := by
      rcases (peerNext_step G h1).2.2 rfl with h | h | h
      · exact .inl h
      · exact .inr h
      · exfalso
        have := peerCalls_past G (k := 10) (by decide) (by omega) h2
        cases calls with
        | nil => cases h2; omega
        | cons b calls =>
          obtain ⟨r, p2, o2, rs2, g1, -, rfl⟩ := peerCalls_cons G h2
          exact (peerNext_step G g1).2.1 (by omega) (h0' r (by simp))
    have hsize : ∀ k, peerInputSize { p1 with step := k } = peerInputSize { p with step := k } := by
      intro k
      unfold peerInputSize
      dsimp only
      rw [hn, ht]
    refine ⟨fun k => if k = p.step then a.input else m k, ?_, fun k hk hp => ?_⟩
    · unfold heard
      rw [h1]
      dsimp only
      rw [e1]
      have hlist : ([1, 4, 6].filter (p.step ≤ ·)) =
          (if hears p.step then [p.step] else []) ++ ([1, 4, 6].filter (p1.step ≤ ·)) := by
        rcases hs3 with h | ⟨h, h'⟩
        · rw [h]
          clear * - hs
          revert hs
          generalize p.step = k
          intro hs
          interval_cases k <;> decide
        · rw [h, h']; decide
      rw [hlist, List.map_append]
      congr 1
      · split <;> simp
      · apply List.map_congr_left
        intro k hk
        have : p1.step ≤ k := by simpa using (List.mem_filter.1 hk).2
        rw [if_neg (by omega)]
    · by_cases he : k = p.step
      · subst he
        dsimp only
        rw [if_pos rfl]
        have h9 : p.step ≤ 9 := by
          simp at hk
          omega
        refine ⟨(peer_output_size G h9 h1).1, o, ?_⟩
        unfold callAt
        rw [h1]
        dsimp only
        rw [if_pos rfl]
      · dsimp only
        rw [if_neg he]
        have hk' : p1.step ≤ k := by
          have : k ≠ 7 := by rintro rfl; simp at hk
          omega
        obtain ⟨g1, o', g2⟩ := e2 k hk hk'
        refine ⟨g1.trans (hsize k), o', ?_⟩
        unfold callAt
        rw [h1]
        dsimp only
        rw [if_neg (Ne.symm he)]
        exact g2

/-- The share of a receiver of which every dealing satisfies Feldman's equation. -/
theorem feldman_poly {n t : ℕ} (ht : 1 ≤ t) (css : ℕ → List B32) (hcs : ∀ j < n, (css j).length = t)
    (hex : ∀ j < n, ∃ Cs : List G, css j = Cs.map enc) :
    ∃ (Ys : List G) (f : (ZMod L)[X]), (List.range n).map (fun j => (css j).head?) = Ys.map (fun Y => some (enc Y)) ∧
      f.degree < t ∧ f.eval 0 • (base : G) = Ys.sum ∧
      ∀ (self : UInt8) (xs : List Share), xs.length = n → (∀ j < n, feldmanOk G self (css j) (xs.getD j ⟨0, zero32⟩)) →
        (xs.map fun s => maskedVal s.value).sum = f.eval (point self) := by
  classical
  choose! Cs hCs using hex
  choose log hlog using fun g : G => exists_smul_base g
  have hsm : ∀ l : List G, l = (l.map log).map fun c => c • (base : G) := by
    intro l
    rw [List.map_map]
    conv_lhs => rw [← List.map_id l]
    apply List.map_congr_left
    intro c _
    exact hlog c
  set F : ℕ → (ZMod L)[X] := fun i => polyOf ((Cs i).map log) with hF
  have hCl : ∀ i < n, (Cs i).length = t := by
    intro i hi
    have := congrArg List.length (hCs i hi)
    rw [List.length_map] at this
    rw [← this]
    exact hcs i hi
  refine ⟨(List.range n).map fun i => (F i).eval 0 • (base : G), ((List.range n).map F).sum, ?_, ?_, ?_, ?_⟩
  · rw [List.map_map]
    apply List.map_congr_left
    intro i hi
    have hi := List.mem_range.1 hi
    rw [hCs i hi]
    cases hC : Cs i with
    | nil => have := hCl i hi; rw [hC] at this; simp at this; omega
    | cons c C =>
      simp only [List.map_cons, List.head?_cons, Function.comp, hF, hC]
      rw [polyOf_eval_zero, ← hlog]
  · apply degree_list_sum
    intro g hg
    rw [List.mem_map] at hg
    obtain ⟨i, hi, rfl⟩ := hg
    have hi := List.mem_range.1 hi
    have := polyOf_degree ((Cs i).map log)
    rwa [List.length_map, hCl i hi] at this
  · rw [eval_list_sum, List.map_map, sum_map_smul]
    rfl
  · intro self xs hl hx
    rw [eval_list_sum, List.map_map]
    congr 1
    apply List.ext_getElem
    · simp [hl]
    · intro i h1 h2
      have hi : i < n := by simpa using h2
      have hi' : i < xs.length := by omega
      obtain ⟨Ds, k1, k2⟩ := hx i hi
      have : Ds = Cs i := by
        apply List.map_injective_iff.2 enc_injective
        rw [← k1, hCs i hi]
      rw [this, hsm (Cs i), commitEval_smul, List.getD_eq_getElem?_getD, List.getElem?_eq_getElem hi',
        Option.getD_some] at k2
      simp only [List.getElem_map, List.getElem_range, Function.comp]
      exact smul_base_inj k2

omit [Signing] [Hashes] [NoiseCrypto] [Mac] [Ristretto G] in
theorem updateTranscript_inj {a b m m' : Bytes} (h : updateTranscript a m = updateTranscript b m')
    (hl : m.length = m'.length) : a = b ∧ m = m' := by
  unfold updateTranscript at h
  obtain ⟨h1, h2⟩ := List.append_inj' h hl
  exact ⟨(List.append_inj' h1 (by rw [hl])).1, h2⟩

end Verif.TpDkg
