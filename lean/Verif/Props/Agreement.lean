import Verif.Proofs.AgreementToy

/-!
# Property C62: the shares of the peers belong to one key
-/

set_option linter.unusedSectionVars false

namespace Verif.Props

open TpDkg Wire Spec.Wire Spec Polynomial Ristretto

section
variable [Signing] [Hashes] (G : Type) [Ristretto G] [NoiseCrypto] [Mac]

/-- All commitments after the first decode to a point other than the neutral element. -/
def WellFormed (cs : List B32) : Prop := ∀ c ∈ cs.drop 1, ∃ P : G, dec c = some P ∧ P ≠ 0

/-- **C62.** A peer that finished had received the commitments of all dealers and had verified its shares with them. If the
other dealers' commitments are well-formed, then the peer announced no complaint exactly if the shares of all other dealers
satisfy Feldman's equation. Its share is the sum of the received shares, provided that the topmost bits of these are 0.
Missing: the peer's own dealing, malformed commitments and topmost bits, for which the claim is false (below). -/
theorem C62_share_checked_partial (h : History) (hf : h.Finished G) : ∃ m7 o7 m8 m9,
    callAt G h.clock 4 h.start h.calls = some (m7, o7) ∧ callAt G h.clock 5 h.start h.calls = some (m8, m9) ∧
    h.final.share.index = h.final.index ∧ h.final.xshares.length = h.start.n.toNat ∧
    (h.final.index ≠ 0 →
      (∀ j < h.start.n.toNat, j + 1 ≠ h.final.index.toNat → WellFormed G (commitmentsIn h.start.t.toNat m7 j)) →
      (announcedIn m9 = 0 ↔ ∀ j < h.start.n.toNat, j + 1 ≠ h.final.index.toNat →
        feldmanOk G h.final.index (commitmentsIn h.start.t.toNat m7 j) (h.final.xshares.getD j ⟨0, zero32⟩))) ∧
    ((∀ s ∈ h.final.xshares, s.value.toNat < 2 ^ 255) →
      h.final.share = ⟨h.final.index, B32.ofZ ((h.final.xshares.map (·.value.val)).sum)⟩) := by
  classical
  obtain ⟨m7, o7, m8, m9, scratch, ret, fails, len, h1, h2, h3, h4, h5, v, h6⟩ := finished_checked G hf
  obtain ⟨rs, hrun, -⟩ := hf.run
  have w := peerCalls_pwf G hf.wf hrun
  obtain ⟨hn, ht, -⟩ := peerCalls_params G hrun
  have hxl : h.final.xshares.length = h.start.n.toNat := by rw [w.xshares, hn]
  have hn128 := hf.wf.n_le
  have ht2 := hf.wf.t_pos
  refine ⟨m7, o7, m8, m9, h1, h2, ?_, hxl, fun hi hgood => ?_, fun htop => ?_⟩
  · unfold Dkg.finish at h6
    rw [C.bind_eq_ok] at h6
    obtain ⟨l, -, h6⟩ := h6
    simp only [C.ok.injEq] at h6
    rw [← h6]
  · have hget : ∀ i < h.start.n.toNat, (((List.range h.start.n.toNat).map (commitmentsIn h.start.t.toNat m7)).getD i []) =
        commitmentsIn h.start.t.toNat m7 i := by
      intro i hi
      simp [List.getD, List.getElem?_map, List.getElem?_range hi]
    have key := C24_verify_commitments_partial G scratch h.start.n h.start.t h.final.index
      ((List.range h.start.n.toNat).map (commitmentsIn h.start.t.toNat m7)) h.final.xshares
      (List.replicate h.start.n.toNat 0) (by omega) (by omega) hi (by simp) hxl (by simp)
      (by simp only [List.mem_map]; rintro c ⟨j, -, rfl⟩; exact commitmentsIn_length _ _ _)
      (fun i hi hne => by rw [hget i hi]; exact hgood i hi hne)
    rw [h4] at key
    simp only [C.ok.injEq, Prod.mk.injEq] at key
    obtain ⟨-, -, key⟩ := key
    have ha : announcedIn m9 = len.toNat := by
      unfold announcedIn
      rw [List.getD_eq_getElem?_getD, h5]
      rfl
    rw [ha, key]
    set bads := (List.range' 1 h.start.n.toNat).filter fun i => decide (i ≠ h.final.index.toNat ∧
      ¬ feldmanOk G h.final.index (((List.range h.start.n.toNat).map (commitmentsIn h.start.t.toNat m7)).getD (i - 1) [])
        (h.final.xshares.getD (i - 1) ⟨0, zero32⟩)) with hbads
    have hbl : bads.length ≤ h.start.n.toNat := (List.length_filter_le _ _).trans (by simp)
    rw [List.length_map, UInt8.toNat_ofNat_of_lt' (by show _ < 256; omega), List.length_eq_zero_iff, hbads,
      List.filter_eq_nil_iff]
    constructor
    · intro hall j hj hne
      have := hall (j + 1) (by rw [List.mem_range'_1]; omega)
      simp only [ne_eq, decide_eq_true_eq, not_and, not_not, Nat.add_sub_cancel] at this
      have := this hne
      rwa [hget j hj] at this
    · intro hall i hi
      rw [List.mem_range'_1] at hi
      simp only [ne_eq, decide_eq_true_eq, not_and, not_not]
      intro hne
      rw [hget (i - 1) (by omega)]
      exact hall (i - 1) (by omega) (by omega)
  · rw [Dkg.finish_eq _ _ _ (by omega) htop] at h6
    simp only [C.ok.injEq] at h6
    rw [← h6, List.take_of_length_le (by omega)]

/-- **C62.** Peers that agree on the first message and on the final transcript had received the same commitments. -/
theorem C62_same_commitments (h h' : History) (hf : h.Finished G) (hf' : h'.Finished G) (hn : h.start.n = h'.start.n)
    (ht : h.start.t = h'.start.t) (h0 : h.start.transcript = h'.start.transcript)
    (h1 : h.final.transcript = h'.final.transcript) :
    ∃ m o o', callAt G h.clock 4 h.start h.calls = some (m, o) ∧ callAt G h'.clock 4 h'.start h'.calls = some (m, o') := by
  obtain ⟨rs, hr, hz⟩ := hf.run
  obtain ⟨rs', hr', hz'⟩ := hf'.run
  obtain ⟨m, e1, e2⟩ := heard_finished G hr hz hf.done
  obtain ⟨m', e1', e2'⟩ := heard_finished G hr' hz' hf'.done
  have t1 := heard_transcript G hr hz
  have t1' := heard_transcript G hr' hz'
  have f0 := hf.first
  have f0' := hf'.first
  rw [e1, f0] at t1
  rw [e1', f0'] at t1'
  rw [t1, t1', h0] at h1
  have hl : ∀ k ∈ [1, 4, 6], (m k).length = (m' k).length := by
    intro k hk
    rw [(e2 k hk (by omega)).1, (e2' k hk (by omega)).1]
    unfold peerInputSize
    dsimp only
    rw [hn, ht]
  simp only [show ([1, 4, 6].filter fun k => decide (0 ≤ k)) = [1, 4, 6] from rfl, List.map_cons, List.map_nil,
    List.foldl_cons, List.foldl_nil] at h1
  obtain ⟨h1, -⟩ := updateTranscript_inj h1 (hl 6 (by simp))
  obtain ⟨-, h4⟩ := updateTranscript_inj h1 (hl 4 (by simp))
  obtain ⟨o, ho⟩ := (e2 4 (by simp) (by omega)).2
  obtain ⟨o', ho'⟩ := (e2' 4 (by simp) (by omega)).2
  exact ⟨m 4, o, o', ho, by rw [h4]; exact ho'⟩

/-- A successful run of the trusted party from the complaint step or earlier to the last steps. -/
structure TpFinished (clock : ℕ → UInt64) (log : Bool) (scratch : B32) (c : TP) (calls : List (Bytes × Bytes)) : Prop where
  good : TpDkg.Good c
  early : c.step ≤ 6
  run : ∃ rs c', tpCalls G clock log scratch c calls = .ok (rs, c') ∧ (∀ r ∈ rs, r = 0) ∧ (c'.step = 9 ∨ c'.step = 10)

/-- The messages of the peer `h` in steps 5 and 8 arrived at the trusted party. -/
structure Arrived (clock : ℕ → UInt64) (log : Bool) (scratch : B32) (c : TP) (calls : List (Bytes × Bytes)) (h : History) :
    Prop where
  complaints : ∀ input o m m9, tpCallAt G clock log scratch 6 c calls = some (input, o) →
    callAt G h.clock 5 h.start h.calls = some (m, m9) →
    slice input ((h.final.index.toNat - 1) * (112 + c.n.toNat)) (112 + c.n.toNat) = m9
  hash : ∀ input o m m20, tpCallAt G clock log scratch 8 c calls = some (input, o) →
    callAt G h.clock 8 h.start h.calls = some (m, m20) → slice input ((h.final.index.toNat - 1) * 143) 143 = m20

/-- **C62.** If the trusted party came to the end, then no peer whose messages arrived had announced a complaint, and all
had sent the same hash. -/
theorem C62_tp_confirms (clock : ℕ → UInt64) (log : Bool) (scratch : B32) (c : TP) (calls : List (Bytes × Bytes))
    (hc : TpFinished G clock log scratch c calls) (ht : 1 ≤ c.t.toNat) : ∃ hash : B32, ∀ h : History, h.Finished G →
    1 ≤ h.final.index.toNat → h.final.index.toNat ≤ c.n.toNat → Arrived G clock log scratch c calls h →
    (∀ m m9, callAt G h.clock 5 h.start h.calls = some (m, m9) → announcedIn m9 = 0) ∧
    Hashes.generichash32 h.final.transcript = hash := by
  obtain ⟨rs, c', hr, hz, hd⟩ := hc.run
  obtain ⟨q, q', input, out, o, g, hn, h6, e1, e2, e3⟩ := tp_split G (k := 6) (.inl rfl) hc.good ht hc.early hr hz hd
  obtain ⟨q8, q8', input8, out8, o8, g8, hn8, h8, e4, -, e5⟩ :=
    tp_split G (k := 8) (.inr rfl) hc.good ht (by have := hc.early; omega) hr hz hd
  refine ⟨Hashes.generichash32 q8.transcript, fun h hf h1 h2 ha => ⟨fun m m9 hm => ?_, ?_⟩⟩
  · rw [← ha.complaints _ _ _ _ e3 hm, ← hn]
    exact tp_none_announced G g h6 e1 (e2 rfl) _ (by rw [hn]; omega)
  · obtain ⟨m, o', hm, ho⟩ := finished_hash G hf
    have := ha.hash _ _ _ _ e5 hm
    rw [← this] at ho
    have h3 := tp_same_hash G g8 h8 e4 (h.final.index.toNat - 1) (by rw [hn8]; omega)
    rw [slice_sub (by omega)] at ho
    rw [ho] at h3
    exact Vector.toList_inj.1 h3

/-- **C62, as far as it holds.** Let the trusted party come to the end of a run, and let `R` be peers of this run that
finished, whose messages arrived. Then, unless two of them have different transcripts with the same hash, all received the
same commitments, their shares lie on one polynomial of degree below `t`, any `t` of them reconstruct the same key, and the
sum of the dealers' first commitments is the public key for it.

Missing, because the code does not ensure it: that all commitments are well-formed, that the peer's share of its own
dealing fits the commitments that were broadcast for it, and that the topmost bits of the received shares are 0. -/
theorem C62_one_key_partial (clock : ℕ → UInt64) (log : Bool) (scratch : B32) (c : TP) (calls : List (Bytes × Bytes))
    (hc : TpFinished G clock log scratch c calls) (R : List History) (T : Bytes) (hR : R ≠ [])
    (hfin : ∀ h ∈ R, h.Finished G)
    (hpar : ∀ h ∈ R, h.start.n = c.n ∧ h.start.t = c.t ∧ h.start.transcript = T)
    (hidx : ∀ h ∈ R, 1 ≤ h.final.index.toNat ∧ h.final.index.toNat ≤ c.n.toNat)
    (harr : ∀ h ∈ R, Arrived G clock log scratch c calls h)
    (hgood : ∀ h ∈ R, ∀ m o, callAt G h.clock 4 h.start h.calls = some (m, o) →
      ∀ j < c.n.toNat, WellFormed G (commitmentsIn c.t.toNat m j))
    (hown : ∀ h ∈ R, ∀ m o, callAt G h.clock 4 h.start h.calls = some (m, o) →
      feldmanOk G h.final.index (commitmentsIn c.t.toNat m (h.final.index.toNat - 1))
        (h.final.xshares.getD (h.final.index.toNat - 1) ⟨0, zero32⟩))
    (htop : ∀ h ∈ R, ∀ s ∈ h.final.xshares, s.value.toNat < 2 ^ 255) :
    (∃ h ∈ R, ∃ h' ∈ R, h.final.transcript ≠ h'.final.transcript ∧
      Hashes.generichash32 h.final.transcript = Hashes.generichash32 h'.final.transcript) ∨
    ∃ (m7 : Bytes) (Ys : List G) (f : (ZMod L)[X]),
      (∀ h ∈ R, ∃ o, callAt G h.clock 4 h.start h.calls = some (m7, o)) ∧
      (List.range c.n.toNat).map (fun j => (commitmentsIn c.t.toNat m7 j).head?) = Ys.map (fun Y => some (enc Y)) ∧
      f.degree < c.t.toNat ∧ f.eval 0 • (base : G) = Ys.sum ∧
      (∀ h ∈ R, h.final.share.index = h.final.index ∧ OnPoly f h.final.share) ∧
      ∀ Q : List History, (∀ h ∈ Q, h ∈ R) → (Q.map (·.final.index)).Nodup → c.t.toNat ≤ Q.length →
        Dkg.reconstruct (Q.map (·.final.share)) = .ok (B32.ofZ (f.eval 0)) := by
  by_cases hcol : ∃ h ∈ R, ∃ h' ∈ R, h.final.transcript ≠ h'.final.transcript ∧
      Hashes.generichash32 h.final.transcript = Hashes.generichash32 h'.final.transcript
  · exact .inl hcol
  right
  push Not at hcol
  obtain ⟨h0, R', rfl⟩ := List.exists_cons_of_ne_nil hR
  have m0 : h0 ∈ h0 :: R' := by simp
  have ht2 : 2 ≤ c.t.toNat := by rw [← (hpar h0 m0).2.1]; exact (hfin h0 m0).wf.t_pos
  obtain ⟨hash, hconf⟩ := C62_tp_confirms G clock log scratch c calls hc (by omega)
  obtain ⟨m7, -, o0, -, hm7⟩ := C62_same_commitments G h0 h0 (hfin h0 m0) (hfin h0 m0) rfl rfl rfl rfl
  have hall : ∀ h ∈ h0 :: R', ∃ o, callAt G h.clock 4 h.start h.calls = some (m7, o) := by
    intro h hm
    have e1 := (hconf h (hfin h hm) (hidx h hm).1 (hidx h hm).2 (harr h hm)).2
    have e2 := (hconf h0 (hfin h0 m0) (hidx h0 m0).1 (hidx h0 m0).2 (harr h0 m0)).2
    obtain ⟨p1, p2, p3⟩ := hpar h hm
    obtain ⟨q1, q2, q3⟩ := hpar h0 m0
    obtain ⟨m, o, o', h1, h2⟩ := C62_same_commitments G h h0 (hfin h hm) (hfin h0 m0) (by rw [p1, q1]) (by rw [p2, q2])
      (by rw [p3, q3]) (by
        by_contra hne
        exact hcol h hm h0 m0 hne (by rw [e1, e2]))
    rw [hm7] at h2
    cases h2
    exact ⟨o, h1⟩
  -- all shares of a peer satisfy the equation
  have hok : ∀ h ∈ h0 :: R', h.final.xshares.length = c.n.toNat ∧ h.final.share.index = h.final.index ∧
      h.final.share = ⟨h.final.index, B32.ofZ ((h.final.xshares.map (·.value.val)).sum)⟩ ∧
      ∀ j < c.n.toNat, feldmanOk G h.final.index (commitmentsIn c.t.toNat m7 j) (h.final.xshares.getD j ⟨0, zero32⟩) := by
    intro h hm
    obtain ⟨m, o, m8, m9, e1, e2, e3, e4, e5, e6⟩ := C62_share_checked_partial G h (hfin h hm)
    obtain ⟨p1, p2, -⟩ := hpar h hm
    obtain ⟨i1, i2⟩ := hidx h hm
    obtain ⟨o', ho'⟩ := hall h hm
    rw [e1] at ho'
    cases ho'
    rw [p1, p2] at e5
    rw [p1] at e4
    refine ⟨e4, e3, e6 (htop h hm), fun j hj => ?_⟩
    by_cases hjx : j + 1 = h.final.index.toNat
    · have := hown h hm _ _ e1
      rwa [show h.final.index.toNat - 1 = j by omega] at this
    · refine (e5 ?_ fun j hj _ => hgood h hm _ _ e1 j hj).1
        ((hconf h (hfin h hm) i1 i2 (harr h hm)).1 _ _ e2) j hj hjx
      intro hz
      rw [hz] at i1
      exact absurd i1 (by decide)
  obtain ⟨Ys, f, hY, hdeg, hf0, hev⟩ := feldman_poly G (n := c.n.toNat) (t := c.t.toNat) (by omega)
    (commitmentsIn c.t.toNat m7) (fun j _ => commitmentsIn_length _ _ _)
    (fun j hj => by
      obtain ⟨Cs, h1, -⟩ := (hok h0 m0).2.2.2 j hj
      exact ⟨Cs, h1⟩)
  have hon : ∀ h ∈ h0 :: R', h.final.share.index = h.final.index ∧ OnPoly f h.final.share := by
    intro h hm
    obtain ⟨e1, e2, e3, e4⟩ := hok h hm
    refine ⟨e2, ?_⟩
    have := hev h.final.index h.final.xshares e1 e4
    rw [e3]
    have hv : h.final.xshares.map (fun s => maskedVal s.value) = h.final.xshares.map (·.value.val) := by
      apply List.map_congr_left
      intro s hs
      unfold maskedVal
      rw [Nat.mod_eq_of_lt (htop h hm s hs)]
      rfl
    rw [hv] at this
    exact ⟨B32.canonical_ofZ _, by rw [B32.val_ofZ]; exact this⟩
  refine ⟨m7, Ys, f, hall, hY, hdeg, hf0, hon, fun Q hQ hnd hlen => ?_⟩
  have hmap : (Q.map (·.final.share)).map (·.index) = Q.map (·.final.index) := by
    rw [List.map_map]
    exact List.map_congr_left fun h hm => (hon h (hQ h hm)).1
  refine Dkg.reconstruct_recovers f _ ?_ (by rw [hmap]; exact hnd) ?_ ?_
  · intro he
    have := congrArg List.length he
    rw [List.length_map, List.length_nil] at this
    omega
  · rw [List.length_map]
    exact hdeg.trans_le (by exact_mod_cast hlen)
  · intro s hs
    obtain ⟨h, hm, rfl⟩ := List.mem_map.1 hs
    exact (hon h (hQ h hm)).2.2

end

/-! ## Violations and examples -/

section Toy
attribute [local instance] Ristretto.toy Toy.hashes Toy.signing Toy.noise Toy.mac

namespace Agree

/-- Well-formed commitments and a share that satisfies the equation. -/
def rowOk (self : UInt8) (cs : List B32) (s : Share) : Bool :=
  Toy.isOk (Dkg.verifyCommitment (ZMod L) zero32 2 self 0 cs s) (· == 0)

/-- Well-formed commitments and a share that does not satisfy the equation. -/
def rowBad (self : UInt8) (cs : List B32) (s : Share) : Bool :=
  Toy.isOk (Dkg.verifyCommitment (ZMod L) zero32 2 self 0 cs s) (· == 1)

theorem row_wf {self : UInt8} {cs : List B32} {s : Share} (hs : self ≠ 0) (hl : cs.length = 2)
    (h : Dkg.verifyCommitment (ZMod L) zero32 2 self 0 cs s ≠ .ok (-1)) : WellFormed (ZMod L) cs := by
  intro c hc
  by_contra hn
  exact h ((C23_verify_malformed_iff (ZMod L) zero32 2 self 0 cs s (by decide) hl hs hs.symm).2.2 ⟨c, hc, hn⟩)

theorem rowOk_elim {self : UInt8} {cs : List B32} {s : Share} (hs : self ≠ 0) (hl : cs.length = 2)
    (h : rowOk self cs s = true) : WellFormed (ZMod L) cs ∧ feldmanOk (ZMod L) self cs s := by
  obtain ⟨r, h1, h2⟩ := Toy.isOk_elim h
  rw [beq_iff_eq] at h2
  subst h2
  refine ⟨row_wf hs hl (by rw [h1]; simp), ?_⟩
  obtain ⟨Cs, e1, -, e2⟩ := (C23_verify_iff (ZMod L) zero32 2 self 0 cs s (by decide) hl hs hs.symm).1 h1
  exact ⟨Cs, e1, e2⟩

theorem rowBad_elim {self : UInt8} {cs : List B32} {s : Share} (hs : self ≠ 0) (hl : cs.length = 2)
    (h : rowBad self cs s = true) : WellFormed (ZMod L) cs ∧ ¬ feldmanOk (ZMod L) self cs s := by
  obtain ⟨r, h1, h2⟩ := Toy.isOk_elim h
  rw [beq_iff_eq] at h2
  subst h2
  have hw := row_wf hs hl (s := s) (by rw [h1]; simp)
  refine ⟨hw, ?_⟩
  rintro ⟨Cs, e1, e2⟩
  have := (C23_verify_iff (ZMod L) zero32 2 self 0 cs s (by decide) hl hs hs.symm).2 ⟨Cs, e1, fun c hc => ?_, e2⟩
  · rw [h1] at this
    simp at this
  · obtain ⟨P, h3, h4⟩ := hw (enc c) (by rw [e1, ← List.map_drop]; exact List.mem_map_of_mem hc)
    rw [dec_enc] at h3
    cases h3
    exact h4

end Agree

open Agree

/-- **C62, violated.** Dealer 1 sends a malformed commitment, and dealer 2 a wrong share. Peer 3 announces no complaint,
neither about dealer 1 nor about dealer 2, and finishes. The return value of `dkg_verify_commitments` is not looked at. -/
theorem C62_malformed_violated : ∃ (h : History) (m7 o7 m8 m9 : Bytes), h.Finished (ZMod L) ∧ h.final.index = 3 ∧
    callAt (ZMod L) h.clock 4 h.start h.calls = some (m7, o7) ∧
    callAt (ZMod L) h.clock 5 h.start h.calls = some (m8, m9) ∧ announcedIn m9 = 0 ∧
    ¬ WellFormed (ZMod L) (commitmentsIn 2 m7 0) ∧ WellFormed (ZMod L) (commitmentsIn 2 m7 1) ∧
    ¬ feldmanOk (ZMod L) 3 (commitmentsIn 2 m7 1) (h.final.xshares.getD 1 ⟨0, zero32⟩) := by
  obtain ⟨c, h1, h2, h3, h4, ⟨o, h5⟩, ⟨m, h6⟩, -⟩ := check_elim check_malformed
  have hb := rowBad_elim (self := 3) (cs := commitmentsIn 2 malformed 1) (s := ⟨3, B32.ofNat 11⟩) (by decide)
    (commitmentsIn_length _ _ _) (by decide +kernel)
  refine ⟨hist 3 malformed (dealt 3) c, malformed, o, m, m9 3, h1, h2, h5, h6, by decide +kernel, fun hw => ?_, hb.1, ?_⟩
  · obtain ⟨P, hP, h0⟩ := hw zero32 (by
      have : (commitmentsIn 2 malformed 0).drop 1 = [zero32] := by decide +kernel
      rw [this]; simp)
    rw [← enc_zero (G := ZMod L), dec_enc] at hP
    cases hP
    exact h0 rfl
  · show ¬ feldmanOk (ZMod L) 3 (commitmentsIn 2 malformed 1) (c.xshares.getD 1 ⟨0, zero32⟩)
    rw [h3]
    exact hb.2

/-- **C62, violated.** All commitments are well-formed and the shares of the other dealers are right, but the commitments
that were broadcast for peer 3 itself do not fit the share that it got from itself. It announces no complaint and
finishes. -/
theorem C62_own_violated : ∃ (h : History) (m7 o7 m8 m9 : Bytes), h.Finished (ZMod L) ∧ h.final.index = 3 ∧
    callAt (ZMod L) h.clock 4 h.start h.calls = some (m7, o7) ∧
    callAt (ZMod L) h.clock 5 h.start h.calls = some (m8, m9) ∧ announcedIn m9 = 0 ∧
    (∀ j < 3, WellFormed (ZMod L) (commitmentsIn 2 m7 j)) ∧
    ¬ feldmanOk (ZMod L) 3 (commitmentsIn 2 m7 2) (h.final.xshares.getD 2 ⟨0, zero32⟩) := by
  obtain ⟨c, h1, h2, h3, h4, ⟨o, h5⟩, ⟨m, h6⟩, -⟩ := check_elim check_third
  have ha := rowOk_elim (self := 3) (cs := commitmentsIn 2 third 0) (s := ⟨3, B32.ofNat 7⟩) (by decide)
    (commitmentsIn_length _ _ _) (by decide +kernel)
  have hb := rowOk_elim (self := 3) (cs := commitmentsIn 2 third 1) (s := ⟨3, B32.ofNat 11⟩) (by decide)
    (commitmentsIn_length _ _ _) (by decide +kernel)
  have hc := rowBad_elim (self := 3) (cs := commitmentsIn 2 third 2) (s := ⟨3, B32.ofNat 15⟩) (by decide)
    (commitmentsIn_length _ _ _) (by decide +kernel)
  refine ⟨hist 3 third (dealt 3) c, third, o, m, m9 3, h1, h2, h5, h6, by decide +kernel, fun j hj => ?_, ?_⟩
  · rcases (by omega : j = 0 ∨ j = 1 ∨ j = 2) with rfl | rfl | rfl
    exacts [ha.1, hb.1, hc.1]
  · show ¬ feldmanOk (ZMod L) 3 (commitmentsIn 2 third 2) (c.xshares.getD 2 ⟨0, zero32⟩)
    rw [h3]
    exact hc.2

/-- **C62, violated.** All commitments are well-formed and all shares satisfy Feldman's equation. But dealer 2 has set the
topmost bit of its share for peer 3, and the share of peer 3 is not the sum of the values that the commitments
determine. -/
theorem C62_top_bit_violated : ∃ (h : History) (m7 o7 m8 m9 : Bytes), h.Finished (ZMod L) ∧ h.final.index = 3 ∧
    callAt (ZMod L) h.clock 4 h.start h.calls = some (m7, o7) ∧
    callAt (ZMod L) h.clock 5 h.start h.calls = some (m8, m9) ∧ announcedIn m9 = 0 ∧
    (∀ j < 3, WellFormed (ZMod L) (commitmentsIn 2 m7 j) ∧
      feldmanOk (ZMod L) 3 (commitmentsIn 2 m7 j) (h.final.xshares.getD j ⟨0, zero32⟩)) ∧
    h.final.share.value.val ≠ (h.final.xshares.map fun s => maskedVal s.value).sum := by
  obtain ⟨c, h1, h2, h3, h4, ⟨o, h5⟩, ⟨m, h6⟩, -⟩ := check_elim check_top
  have ha := rowOk_elim (self := 3) (cs := commitmentsIn 2 right 0) (s := ⟨3, B32.ofNat 7⟩) (by decide)
    (commitmentsIn_length _ _ _) (by decide +kernel)
  have hb := rowOk_elim (self := 3) (cs := commitmentsIn 2 right 1) (s := ⟨3, B32.ofNat (11 + 2 ^ 255)⟩) (by decide)
    (commitmentsIn_length _ _ _) (by decide +kernel)
  have hc := rowOk_elim (self := 3) (cs := commitmentsIn 2 right 2) (s := ⟨3, B32.ofNat 15⟩) (by decide)
    (commitmentsIn_length _ _ _) (by decide +kernel)
  refine ⟨hist 3 right _ c, right, o, m, m9 3, h1, h2, h5, h6, by decide +kernel, fun j hj => ?_, ?_⟩
  · show WellFormed (ZMod L) (commitmentsIn 2 right j) ∧
      feldmanOk (ZMod L) 3 (commitmentsIn 2 right j) (c.xshares.getD j ⟨0, zero32⟩)
    rw [h3]
    rcases (by omega : j = 0 ∨ j = 1 ∨ j = 2) with rfl | rfl | rfl
    exacts [ha, hb, hc]
  · show c.share.value.val ≠ (c.xshares.map fun s => maskedVal s.value).sum
    rw [h3]
    have e1 : c.share.value.val = ((33 + 2 ^ 255 : ℕ) : ZMod L) := by
      unfold B32.val
      rw [h4, ZMod.natCast_mod]
    have e2 : ([⟨3, B32.ofNat 7⟩, ⟨3, B32.ofNat (11 + 2 ^ 255)⟩, ⟨3, B32.ofNat 15⟩] : List Share).map
        (fun s => maskedVal s.value) = [7, 11, 15].map fun k : ℕ => (k : ZMod L) := by
      simp only [List.map_cons, List.map_nil, maskedVal, List.cons.injEq, and_true]
      refine ⟨?_, ?_, ?_⟩ <;> congr 1 <;> decide +kernel
    rw [e1, e2]
    simp only [List.map_cons, List.map_nil, List.sum_cons, List.sum_nil, add_zero]
    rw [← Nat.cast_add, ← Nat.cast_add, Ne, ZMod.natCast_eq_natCast_iff']
    decide +kernel

/-- The hypotheses of the theorems can be met: peers 1 and 3 of a run of three. -/
example : ∃ (R : List History) (clock : ℕ → UInt64) (c : TP) (calls : List (Bytes × Bytes)),
    R.length = 2 ∧ (R.map (·.final.index)).Nodup ∧ c.n = 3 ∧ c.t = 2 ∧ TpFinished (ZMod L) clock true zero32 c calls ∧
    ∀ h ∈ R, h.Finished (ZMod L) ∧ (h.start.n = c.n ∧ h.start.t = c.t ∧ h.start.transcript = []) ∧
      (1 ≤ h.final.index.toNat ∧ h.final.index.toNat ≤ c.n.toNat) ∧ Arrived (ZMod L) clock true zero32 c calls h ∧
      (∀ m o, callAt (ZMod L) h.clock 4 h.start h.calls = some (m, o) →
        (∀ j < c.n.toNat, WellFormed (ZMod L) (commitmentsIn c.t.toNat m j)) ∧
        feldmanOk (ZMod L) h.final.index (commitmentsIn c.t.toNat m (h.final.index.toNat - 1))
          (h.final.xshares.getD (h.final.index.toNat - 1) ⟨0, zero32⟩)) ∧
      ∀ s ∈ h.final.xshares, s.value.toNat < 2 ^ 255 := by
  obtain ⟨c1, a1, a2, a3, a4, ⟨o, a5⟩, ⟨m, a6⟩, ⟨m', a7⟩⟩ := check_elim check_first
  obtain ⟨c3, b1, b2, b3, b4, ⟨o', b5⟩, ⟨k, b6⟩, ⟨k', b7⟩⟩ := check_elim check_last
  obtain ⟨⟨rs, tp⟩, t1, t2⟩ := Toy.isOk_elim tp_run
  simp only [Bool.and_eq_true, List.all_eq_true, beq_iff_eq] at t2
  refine ⟨[hist 1 right (dealt 1) c1, hist 3 right (dealt 3) c3], fun _ => 5, Toy.tp3 6, tpCalls3, rfl, ?_, rfl, rfl,
    ⟨Toy.tp3_good (by decide), by decide, rs, tp, t1, t2.1, .inl t2.2⟩, ?_⟩
  · show [c1.index, c3.index].Nodup
    rw [a2, b2]
    decide
  have arr : ∀ (i : UInt8) (c : PeerState) (m m' : Bytes), c.index = i →
      slice (m9 1 ++ m9 2 ++ m9 3) ((i.toNat - 1) * 115) 115 = m9 i →
      slice (m20 1 ++ m20 2 ++ m20 3) ((i.toNat - 1) * 143) 143 = m20 i →
      callAt (ZMod L) (fun _ => 5) 5 (Toy.peer 0) (Agree.calls i right (dealt i)) = some (m, m9 i) →
      callAt (ZMod L) (fun _ => 5) 8 (Toy.peer 0) (Agree.calls i right (dealt i)) = some (m', m20 i) →
      Arrived (ZMod L) (fun _ => 5) true zero32 (Toy.tp3 6) tpCalls3 (hist i right (dealt i) c) := by
    intro i c m m' hi s5 s8 e5 e8
    obtain ⟨⟨in6, o6⟩, e6, h6⟩ := any_elim tp_at6
    obtain ⟨⟨in8, o8⟩, e8', h8⟩ := any_elim tp_at8
    rw [beq_iff_eq] at h6 h8
    dsimp only at h6 h8
    constructor
    · intro input o m1 m2 g1 g2
      have g2 : callAt (ZMod L) (fun _ => 5) 5 (Toy.peer 0) (Agree.calls i right (dealt i)) = some (m1, m2) := g2
      rw [e6] at g1
      rw [e5] at g2
      cases g1
      cases g2
      rw [h6]
      show slice _ ((c.index.toNat - 1) * 115) 115 = _
      rw [hi, s5]
    · intro input o m1 m2 g1 g2
      have g2 : callAt (ZMod L) (fun _ => 5) 8 (Toy.peer 0) (Agree.calls i right (dealt i)) = some (m1, m2) := g2
      rw [e8'] at g1
      rw [e8] at g2
      cases g1
      cases g2
      rw [h8]
      show slice _ ((c.index.toNat - 1) * 143) 143 = _
      rw [hi, s8]
  have r0 := rowOk_elim (self := 1) (cs := commitmentsIn 2 right 0) (s := ⟨1, B32.ofNat 3⟩) (by decide)
    (commitmentsIn_length _ _ _) (by decide +kernel)
  have r1 := rowOk_elim (self := 1) (cs := commitmentsIn 2 right 1) (s := ⟨1, B32.ofNat 5⟩) (by decide)
    (commitmentsIn_length _ _ _) (by decide +kernel)
  have r2 := rowOk_elim (self := 3) (cs := commitmentsIn 2 right 2) (s := ⟨3, B32.ofNat 15⟩) (by decide)
    (commitmentsIn_length _ _ _) (by decide +kernel)
  have wf : ∀ j < 3, WellFormed (ZMod L) (commitmentsIn 2 right j) := fun j hj => by
    rcases (by omega : j = 0 ∨ j = 1 ∨ j = 2) with rfl | rfl | rfl
    exacts [r0.1, r1.1, r2.1]
  intro h hm
  simp only [List.mem_cons, List.not_mem_nil, or_false] at hm
  rcases hm with rfl | rfl
  · refine ⟨a1, ⟨rfl, rfl, rfl⟩, ?_, arr 1 c1 m m' a2 (by decide +kernel) (by decide +kernel) a6 a7, fun x y hx => ?_, ?_⟩
    · show 1 ≤ c1.index.toNat ∧ c1.index.toNat ≤ 3
      rw [a2]
      decide
    · have hx : callAt (ZMod L) (fun _ => 5) 4 (Toy.peer 0) (Agree.calls 1 right (dealt 1)) = some (x, y) := hx
      rw [a5] at hx
      cases hx
      refine ⟨wf, ?_⟩
      show feldmanOk (ZMod L) c1.index (commitmentsIn 2 right (c1.index.toNat - 1))
        (c1.xshares.getD (c1.index.toNat - 1) ⟨0, zero32⟩)
      rw [a2, a3]
      exact r0.2
    · show ∀ s ∈ c1.xshares, s.value.toNat < 2 ^ 255
      rw [a3]
      decide +kernel
  · refine ⟨b1, ⟨rfl, rfl, rfl⟩, ?_, arr 3 c3 k k' b2 (by decide +kernel) (by decide +kernel) b6 b7, fun x y hx => ?_, ?_⟩
    · show 1 ≤ c3.index.toNat ∧ c3.index.toNat ≤ 3
      rw [b2]
      decide
    · have hx : callAt (ZMod L) (fun _ => 5) 4 (Toy.peer 0) (Agree.calls 3 right (dealt 3)) = some (x, y) := hx
      rw [b5] at hx
      cases hx
      refine ⟨wf, ?_⟩
      show feldmanOk (ZMod L) c3.index (commitmentsIn 2 right (c3.index.toNat - 1))
        (c3.xshares.getD (c3.index.toNat - 1) ⟨0, zero32⟩)
      rw [b2, b3]
      exact r2.2
    · show ∀ s ∈ c3.xshares, s.value.toNat < 2 ^ 255
      rw [b3]
      decide +kernel

end Toy

end Verif.Props
