import Verif.Spec.Agreement
import Verif.Proofs.Agreement
import Verif.Props.TpMsg
import Verif.Props.TpVerdict

/-!
# What the trusted party checked in a successful run, and the hash that a peer sends
-/

set_option linter.unusedSectionVars false

namespace Verif.TpDkg

open H Wire Spec.Wire Props

variable [Signing] [Hashes] (G : Type) [Ristretto G] [NoiseCrypto] [Mac]
variable {clock : ℕ → UInt64} {log : Bool} {scratch : B32}

/-- The step of revealed keys never succeeds. -/
theorem tpNext_not7 {c c' : TP} {input out o : Bytes} (g : Good c) (ht : 1 ≤ c.t.toNat)
    (h : tpNext G clock log scratch c input out = .ok (0, c', o)) : c.step ≠ 7 := by
  intro h7
  have h9 : c.step ≤ 9 := by omega
  obtain ⟨hil, hol⟩ := tpNext_lengths G g h9 h (by decide) (by decide)
  simp only [h7, if_true] at hil
  simp only [h7, tpOutputSize] at hol
  have hw := wp_tp18 G (clock := clock) (log := log) (scratch := scratch) (input := input) (s := ⟨c, out, 0, 0, []⟩)
    g.wf rfl ht (g.seven h7).2 h7 (g.seven h7).1 hil (by show out.length = _; exact hol)
  have hh : tpHandler G clock log scratch input c.step = tp18 G clock log scratch input := by rw [h7]; rfl
  rw [← hh] at hw
  obtain ⟨s, hE | hQ, -, -⟩ := tpNext_elim G h9 hw h
  · exact absurd hE.1 (by decide)
  · exact absurd hQ.1 (by decide)

theorem tpNext_step_ok {c c' : TP} {input out o : Bytes} (h : tpNext G clock log scratch c input out = .ok (0, c', o)) :
    c.step ≤ 9 ∧ (c'.step = c.step + 1 ∨ (c.step = 6 ∧ c'.step = 8 ∧ c'.complaintsLen = 0) ∨ 99 ≤ c'.step) := by
  have h9 : c.step ≤ 9 := by
    by_contra hc
    rw [tpNext_ended G (by omega)] at h
    cases h
  refine ⟨h9, ?_⟩
  obtain ⟨s, hs, rfl, rfl⟩ := tpNext_elim G h9 (step_tpHandler G ⟨c, out, 0, 0, []⟩) h
  have hs : StepRel ⟨c, out, 0, 0, []⟩ s := hs.elim id id
  unfold StepRel at hs
  dsimp only at hs
  unfold after
  dsimp only
  by_cases h6 : c.step = 6
  · rw [if_pos h6]
    by_cases hl : s.ctx.complaintsLen = 0
    · rw [if_pos hl]
      rcases hs with hs | hs
      · exact .inr (.inl ⟨h6, by omega, hl⟩)
      · exact .inr (.inr (by omega))
    · rw [if_neg hl]
      omega
  · rw [if_neg h6, if_neg (by simp)]
    omega

theorem tpCalls_cons {c c' : TP} {a : Bytes × Bytes} {calls : List (Bytes × Bytes)} {rs : List Int}
    (h : tpCalls G clock log scratch c (a :: calls) = .ok (rs, c')) :
    ∃ r c1 o rs1, tpNext G clock log scratch c a.1 a.2 = .ok (r, c1, o) ∧
      tpCalls G clock log scratch c1 calls = .ok (rs1, c') ∧ rs = r :: rs1 := by
  obtain ⟨input, out⟩ := a
  unfold tpCalls at h
  simp only [C.bind_eq_ok, Prod.exists] at h
  obtain ⟨r, c1, o, h1, rs1, c2, h2, h3⟩ := h
  cases h3
  exact ⟨r, c1, o, rs1, h1, h2, rfl⟩

/-- A successful run of the trusted party to its last steps has a call in step 6, after which there are no complaints, and
a call in step 8. -/
theorem tp_split {k : ℕ} (hk : k = 6 ∨ k = 8) : ∀ {calls : List (Bytes × Bytes)} {c c' : TP} {rs : List Int}, Good c →
    1 ≤ c.t.toNat → c.step ≤ k → tpCalls G clock log scratch c calls = .ok (rs, c') → (∀ r ∈ rs, r = 0) →
    (c'.step = 9 ∨ c'.step = 10) →
    ∃ q q' input out o, Good q ∧ q.n = c.n ∧ q.step = k ∧ tpNext G clock log scratch q input out = .ok (0, q', o) ∧
      (k = 6 → q'.complaintsLen = 0) ∧ tpCallAt G clock log scratch k c calls = some (input, o)
  | [], c, c', rs, _, _, hp, h, _, hd => by cases h; omega
  | a :: calls, c, c', rs, g, ht, hp, h, h0, hd => by
    obtain ⟨r, c1, o, rs1, h1, h2, rfl⟩ := tpCalls_cons G h
    obtain ⟨input, out⟩ := a
    dsimp only at h1
    have hr : r = 0 := h0 r (by simp)
    subst hr
    have h0' : ∀ r ∈ rs1, r = 0 := fun r hr => h0 r (by simp [hr])
    have g1 := good_next G g h1
    have hkk := (keep_tpNext G h1).1
    have hn1 : c1.n = c.n := hkk.n
    have ht1 : c1.t = c.t := hkk.t
    obtain ⟨-, hst⟩ := tpNext_step_ok G h1
    have hnext : c1.step ≠ 7 ∧ c1.step < 99 := by
      cases calls with
      | nil => cases h2; omega
      | cons b calls =>
        obtain ⟨r, c2, o2, rs2, e1, -, rfl⟩ := tpCalls_cons G h2
        have : r = 0 := h0' r (by simp)
        subst this
        have := (tpNext_step_ok G e1).1
        exact ⟨tpNext_not7 G g1 (by rw [ht1]; exact ht) e1, by omega⟩
    by_cases he : c.step = k
    · refine ⟨c, c1, input, out, o, g, rfl, he, h1, fun h6 => ?_, ?_⟩
      · rcases hst with h' | ⟨_, _, h'⟩ | h'
        · omega
        · exact h'
        · omega
      · unfold tpCallAt
        rw [h1]
        dsimp only
        rw [if_pos he]
    · obtain ⟨q, q', input', out', o', e1, e2, e3, e4, e5, e6⟩ :=
        tp_split hk g1 (by rw [ht1]; exact ht) (by omega) h2 h0' hd
      refine ⟨q, q', input', out', o', e1, by rw [e2, hn1], e3, e4, e5, ?_⟩
      unfold tpCallAt
      rw [h1]
      dsimp only
      rw [if_neg he]
      exact e6

/-- Without recorded complaints no peer announced one. -/
theorem tp_none_announced {q q' : TP} {input out o : Bytes} (g : Good q) (h6 : q.step = 6)
    (h : tpNext G clock log scratch q input out = .ok (0, q', o)) (hl : q'.complaintsLen = 0) (i : ℕ)
    (hi : i < q.n.toNat) : announcedIn (slice input (i * (112 + q.n.toNat)) (112 + q.n.toNat)) = 0 := by
  obtain ⟨-, -, -, hc⟩ := C43_tp_complaints G clock log scratch q q' input out o 0 g h6 h
  have hc := hc rfl
  rw [hl] at hc
  change List.take 0 _ = _ at hc
  rw [List.take_zero] at hc
  obtain ⟨hil, -⟩ := tpNext_lengths G g (by omega) h (by decide) (by decide)
  simp only [h6, inputOf] at hil
  obtain ⟨n, hn⟩ : ∃ n, q.n.toNat = n := ⟨_, rfl⟩
  rw [hn] at hi hc hil ⊢
  have hil : input.length = (112 + n) * n := by simpa using hil
  have hb : (i + 1) * (112 + n) ≤ input.length := by
    rw [hil, Nat.mul_comm]; exact Nat.mul_le_mul_left _ hi
  rw [Nat.add_mul, Nat.one_mul] at hb
  have h1 := (List.flatMap_eq_nil_iff.1 hc.symm) i (List.mem_range.2 hi)
  have h2 := congrArg List.length h1
  unfold slice at h2
  rw [List.length_map, List.length_take, List.length_drop, List.length_nil] at h2
  unfold announcedIn slice
  rw [List.getD_eq_getElem?_getD, List.getElem?_take_of_lt (by omega), List.getElem?_drop,
    ← List.getD_eq_getElem?_getD]
  omega

/-- The hashes that the trusted party compared. -/
theorem tp_same_hash {q q' : TP} {input out o : Bytes} (g : Good q) (h8 : q.step = 8)
    (h : tpNext G clock log scratch q input out = .ok (0, q', o)) (i : ℕ) (hi : i < q.n.toNat) :
    slice input (i * 143 + 111) 32 = (Hashes.generichash32 q.transcript).toList := by
  have h9 : q.step ≤ 9 := by omega
  obtain ⟨hil, hol⟩ := tpNext_lengths G g h9 h (by decide) (by decide)
  simp only [h8, inputOf, tpOutputSize] at hil hol
  have hw := wp_tp20 (clock := clock) (log := log) (input := input) (s := ⟨q, out, 0, 0, []⟩) g.wf rfl
    (by simpa using hil) (by show out.length = _; exact hol)
  have hh : tpHandler G clock log scratch input q.step = tp20 clock log input := by rw [h8]; rfl
  rw [← hh] at hw
  obtain ⟨s, hE | hQ, -, -⟩ := tpNext_elim G h9 hw h
  · exact absurd hE.1 (by decide)
  · obtain ⟨-, -, ⟨k, v, -, -, hv⟩, hend⟩ := hQ
    rcases hend with ⟨-, h0, -⟩ | h3
    · rcases hv with hv | ⟨-, hv, -⟩
      · exact (hv.2.2 i hi).2
      · dsimp only at hv; omega
    · exact absurd h3.1 (by decide)

/-- The hash in the message of step 8. -/
theorem Peer.chk_step19 {input : Bytes} {s : PRun} : Wp (Peer.step19 clock log input) True (fun r _ => r ≠ 0)
    (fun _ s' => slice s'.out 111 32 = (Hashes.generichash32 s.ctx.transcript).toList) s := by
  unfold Peer.step19
  rw [wp_bind, wp_get]
  rw [wp_ite]
  refine ⟨fun _ h => absurd h (by decide), fun _ => ?_⟩
  rw [wp_ite]
  refine ⟨fun _ h => absurd h (by decide), fun ho => ?_⟩
  simp only [not_not] at ho
  have ho : s.out.length = 143 := ho
  have hl : (Hashes.generichash32 s.ctx.transcript).toList.length = 32 := by simp
  have e1 : hdrSize + (Hashes.generichash32 s.ctx.transcript).toList.length ≤ s.out.length := by
    rw [hl, ho]; decide
  rw [wp_bind, Peer.wp_setOut e1, wp_bind, Peer.wp_send (by dsimp only; rw [splice_length e1]; omega), wp_bind]
  refine Peer.wp_of_both (Peer.same_dumpOut _ _ _) (Peer.err_dumpOut _ _ _) (fun _ _ _ h => h) fun _ s' h _ => ?_
  · subst h
    rw [wp_pure]
    dsimp only
    have hh := Peer.header_length s.ctx (clock s.ctx.ticks) msg19Size 20 0
    rw [slice_splice_after (by rw [splice_length e1, hh]; omega) (by rw [hh])]
    have := slice_splice_same e1
    rw [hl] at this
    exact this

/-- The transcript is complete before step 7. -/
theorem peerCalls_transcript : ∀ {calls : List PCall} {p p' : PeerState} {rs : List Int}, 6 < p.step →
    peerCalls G clock p calls = .ok (rs, p') → (∀ r ∈ rs, r = 0) → p'.transcript = p.transcript
  | [], _, _, _, _, h, _ => by cases h; rfl
  | a :: calls, p, p', rs, hs, h, h0 => by
    obtain ⟨r, p1, o, rs1, h1, h2, rfl⟩ := peerCalls_cons G h
    have hr : r = 0 := h0 r (by simp)
    subst hr
    have : 6 < p1.step := by have := (peerNext_step G h1).2.2 rfl; omega
    rw [peerCalls_transcript this h2 fun r hr => h0 r (by simp [hr]), peerNext_transcript G h1, if_neg]
    unfold hears
    simp
    omega

/-- A peer that finished had sent the hash of its final transcript. -/
theorem finished_hash {h : History} (hf : h.Finished G) : ∃ m o, callAt G h.clock 8 h.start h.calls = some (m, o) ∧
    slice o 111 32 = (Hashes.generichash32 h.final.transcript).toList := by
  obtain ⟨clock, p, calls, p'⟩ := h
  obtain ⟨w, first, ⟨rs, hr, h0⟩, done⟩ := hf
  dsimp only at w first hr done ⊢
  obtain ⟨pre, a, post, q, q', o, rs0, rs1, e1, e2, e3, e4, e5, e6, e7, e8, e9⟩ :=
    run_split G (k := 8) (by decide) (by decide) (by omega) hr h0 done
  refine ⟨_, _, e9, ?_⟩
  unfold PCall.run at e5
  have hw := Peer.chk_step19 (clock := clock) (log := a.log) (input := a.input) (s := ⟨q, a.out⟩)
  have hh : Peer.handler G clock a.log a.mlock a.scratch a.rnd a.input q.step = Peer.step19 clock a.log a.input := by
    rw [e4]; rfl
  rw [← hh] at hw
  obtain ⟨s, hE | hQ, -, rfl⟩ := peerNext_elim G hw e5
  · exact absurd rfl hE
  · rw [hQ]
    dsimp only
    have ht := peerNext_transcript G e5
    rw [if_neg (by rw [e4]; decide)] at ht
    rw [peerCalls_transcript G (by have := (peerNext_step G e5).2.2 rfl; omega) e7 e8, ht]

end Verif.TpDkg
