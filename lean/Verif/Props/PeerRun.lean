import Verif.Proofs.PeerToy
import Verif.Proofs.PeerStep
import Verif.Proofs.Transcript
import Verif.Props.TpRun
import Verif.Props.TpVerdict
import Verif.Props.Dkg

/-!
# Properties C32, C34, C38, C39, C46, C47, C51 of the peers (`/repo/src/tp-dkg.c`)
-/

set_option linter.unusedSectionVars false

namespace Verif.Props

open TpDkg Wire Spec.Wire

section
variable [Signing] [Hashes] (G : Type) [Ristretto G] [NoiseCrypto] [Mac]

/-! ## C32 -/

/-- The step of a peer that handles the message sent by the trusted party in step `k`. -/
def consumer (k : ℕ) : ℕ := if k ≤ 6 then k else k + 1

/-- The step of a peer whose message the trusted party handles in step `k`. -/
def producer (k : ℕ) : ℕ := if k ≤ 6 then k - 1 else k

/-- The message announced for peer `j` after the step `c.prev`. -/
theorem peerMsg_size {c : TP} {p : PeerState} {size j : ℕ} (hs : size = tpOutputSize { c with step := c.prev })
    (h9 : c.prev ≤ 9) (hn : p.n = c.n) (ht : p.t = c.t) (hp : p.step = consumer c.prev) (hj : j < c.n.toNat) :
    ∃ off, tpPeerMsg c size (UInt8.ofNat j) = (0, some (off, peerInputSize p)) ∧
      (∀ a, off = some a → a + peerInputSize p ≤ size) ∧ (off = none → peerInputSize p = 0) := by
  have hlt := c.n.toNat_lt
  have e : (UInt8.ofNat j).toNat = j := by rw [UInt8.toNat_ofNat', Nat.mod_eq_of_lt (by omega)]
  obtain ⟨n, hnn⟩ : ∃ n, c.n.toNat = n := ⟨_, rfl⟩
  obtain ⟨k, hk⟩ : ∃ k, c.prev = k := ⟨_, rfl⟩
  have hge : ¬ (UInt8.ofNat j ≥ c.n) := by rw [ge_iff_le, UInt8.le_iff_toNat_le, e]; omega
  rw [hnn] at hj
  have key : ∀ sz, j * sz + sz ≤ n * sz := fun sz => by
    have := Nat.mul_le_mul_right sz (show j + 1 ≤ n from hj)
    rwa [Nat.add_mul, Nat.one_mul] at this
  have m1 : ∀ a, a * n * n = n * (a * n) := fun a => by ring
  have m2 : ∀ a, j * a * n = j * (a * n) := fun a => by ring
  have m3 : ∀ a, n * n * a = n * (n * a) := fun a => by ring
  have m4 : ∀ a, j * n * a = j * (n * a) := fun a => by ring
  unfold tpPeerMsg peerInputSize
  unfold tpOutputSize at hs
  dsimp only at hs ⊢
  rw [if_neg hge, e, hp, hn, ht, hnn]
  rw [hnn] at hs
  rw [hk] at hs h9 ⊢
  interval_cases k <;> simp only [consumer, show (0 : ℕ) ≤ 6 by decide, show (1 : ℕ) ≤ 6 by decide, show (2 : ℕ) ≤ 6 by decide,
    show (3 : ℕ) ≤ 6 by decide, show (4 : ℕ) ≤ 6 by decide, show (5 : ℕ) ≤ 6 by decide, show (6 : ℕ) ≤ 6 by decide,
    show ¬ (7 : ℕ) ≤ 6 by decide, show ¬ (8 : ℕ) ≤ 6 by decide, show ¬ (9 : ℕ) ≤ 6 by decide, if_true, if_false] at hs ⊢
  case «7» => exact ⟨none, rfl, ⟨fun _ h => (Option.some_ne_none _ h.symm).elim, fun _ => trivial⟩⟩
  case «9» => exact ⟨none, rfl, ⟨fun _ h => (Option.some_ne_none _ h.symm).elim, fun _ => trivial⟩⟩
  all_goals
    rw [if_neg (by
      subst hs
      have k1 := key msg1Size
      have k4 := key (msg4Size * n)
      have k5 := key (msg5Size * n)
      have k8 := key (n * msg8Size)
      simp only [m1, m2, m3, m4] at *
      omega)]
    refine ⟨_, rfl, fun a h => ?_, fun h => by cases h⟩
    cases h
    subst hs
    have k1 := key msg1Size
    have k4 := key (msg4Size * n)
    have k5 := key (msg5Size * n)
    have k8 := key (n * msg8Size)
    simp only [m1, m2, m3, m4] at *
    omega

/-- The previous step after a success. -/
theorem tpNext_prev_ok {clock : ℕ → UInt64} {log : Bool} {scratch : B32} {c c' : TP} {input out o : Bytes} (g : Good c)
    (h7 : c.step ≠ 7) (hr : tpNext G clock log scratch c input out = .ok (0, c', o)) : c'.prev = c.step ∧ c.step ≤ 9 := by
  have h9 : c.step ≤ 9 := by
    by_contra hc
    rw [tpNext_ended G (by omega)] at hr
    cases hr
  by_cases h8 : c.step = 8
  · obtain ⟨hil, hol⟩ := tpNext_lengths G g h9 hr (by decide) (by decide)
    simp only [h8, inputOf, tpOutputSize] at hil hol
    have hw := wp_tp20 (clock := clock) (log := log) (input := input) (s := ⟨c, out, 0, 0, []⟩) g.wf rfl
      (by simpa using hil) (by show out.length = _; exact hol)
    have hh : tpHandler G clock log scratch input c.step = tp20 clock log input := by rw [h8]; rfl
    rw [← hh] at hw
    obtain ⟨s, hE | hQ, rfl, rfl⟩ := tpNext_elim G h9 hw hr
    · exact absurd hE.1 (by decide)
    · rcases hQ.2.2.2 with ⟨_, _, h⟩ | ⟨h, _⟩
      · have h3 : s.ctx.step = c.step := congrArg Prod.fst h
        have h4 : (after c.step 0 s.ctx).prev = s.ctx.step := by unfold after; split <;> rfl
        exact ⟨by rw [h4, h3], h9⟩
      · exact absurd h (by decide)
  · exact ⟨tpNext_prev G h9 h7 h8 hr, h9⟩

/-- **C32.** After a successful call of the trusted party the part of the output for each peer has the size that the peer
expects. (In the step of the revealed keys, which ends the run, there is no output and no success.) -/
theorem C32_tp_to_peer (clock : ℕ → UInt64) (log : Bool) (scratch : B32) (c c' : TP) (input out o : Bytes) (g : Good c)
    (h7 : c.step ≠ 7) (hr : tpNext G clock log scratch c input out = .ok (0, c', o)) (p : PeerState) (hn : p.n = c.n)
    (ht : p.t = c.t) (hs : p.step = consumer c.step) (j : ℕ) (hj : j < c.n.toNat) :
    ∃ off, tpPeerMsg c' o.length (UInt8.ofNat j) = (0, some (off, peerInputSize p)) ∧
      (∀ a, off = some a → a + peerInputSize p ≤ o.length) ∧ (delivered c' o j).length = peerInputSize p := by
  obtain ⟨hp, h9⟩ := tpNext_prev_ok G g h7 hr
  obtain ⟨-, hol⟩ := tpNext_lengths G g h9 hr (by decide) (by decide)
  obtain ⟨hk, hlen⟩ := keep_tpNext G hr
  have e1 : c'.n = c.n := hk.n
  have e2 : c'.t = c.t := hk.t
  obtain ⟨off, h1, h2, h3⟩ := peerMsg_size (c := c') (p := p) (size := o.length) (j := j)
    (by rw [hlen, hol]; unfold tpOutputSize; dsimp only; rw [hp, e1, e2]) (by omega) (by rw [e1, hn]) (by rw [e2, ht])
    (by rw [hp, hs]) (by rw [e1]; exact hj)
  refine ⟨off, h1, h2, ?_⟩
  unfold delivered
  rw [h1]
  cases off with
  | none => rw [h3 rfl]; rfl
  | some a =>
    have := h2 a rfl
    show (slice o a (peerInputSize p)).length = _
    unfold slice
    rw [List.length_take, List.length_drop]
    omega

/-- A successful call of a peer has an output of the announced size. -/
theorem peer_output_size {clock : ℕ → UInt64} {log mlock : Bool} {scratch : B32} {rnd : Rnd} {p p' : PeerState}
    {input out o : Bytes} (h9 : p.step ≤ 9) (hr : peerNext G clock log mlock scratch rnd p input out = .ok (0, p', o)) :
    input.length = peerInputSize p ∧ o.length = peerOutputSize p := by
  by_contra hc
  have hl := (peerNext_params G hr).2.2.2.2.2
  rw [not_and_or, hl] at hc
  obtain ⟨s, hs | hs, -, -⟩ := peerNext_elim G (Peer.wp_wrong G (clock := clock) (log := log) (mlock := mlock)
    (scratch := scratch) (rnd := rnd) (s := ⟨p, out⟩) h9 hc) hr
  · rcases hs.1 with h | h <;> exact absurd h (by decide)
  · exact hs

/-- **C32.** The output of a successful call of peer `i` (from 0) has the size that the trusted party expects from this
peer. In the step of the revealed keys both know the same complaints. -/
theorem C32_peer_to_tp (clock : ℕ → UInt64) (log mlock : Bool) (scratch : B32) (rnd : Rnd) (p p' : PeerState)
    (input out o : Bytes) (hr : peerNext G clock log mlock scratch rnd p input out = .ok (0, p', o)) (c : TP) (g : Good c)
    (hn : p.n = c.n) (ht : p.t = c.t) (h0 : 1 ≤ c.step) (h9 : c.step ≤ 9) (hs : p.step = producer c.step) (i : ℕ)
    (hi : i < c.n.toNat)
    (h7 : c.step = 7 → p.complaintsLen = c.complaintsLen ∧
      p.myLen.toNat = c.known.countP fun x => x.toNat % 256 = i + 1) :
    ∃ r sizes, tpInputSizes c = .ok (r, sizes) ∧ sizes[i]? = some o.length := by
  have hp9 : p.step ≤ 9 := by rw [hs]; unfold producer; split <;> omega
  rw [(peer_output_size G hp9 hr).2]
  by_cases h : c.step = 7
  · obtain ⟨hl, hm⟩ := h7 h
    obtain ⟨hC0, hC⟩ := g.seven h
    rw [← hl] at hC0
    refine ⟨_, _, C33_sizes_of_answers c h (by have := g.wf.n_pos; omega) g.wf.n_le
      (by rw [g.wf.complaints]; exact hC.len) hC, ?_⟩
    rw [List.getElem?_map, List.getElem?_range hi]
    have e7 : p.step = 7 := by rw [hs, h]; rfl
    have hl' : p.complaintsLen > 0 := by
      rw [gt_iff_lt, UInt16.lt_iff_toNat_lt]
      rcases Nat.eq_zero_or_pos p.complaintsLen.toNat with h' | h'
      · exact absurd (UInt16.toNat_inj.1 (by simpa using h')) hC0
      · simpa using h'
    unfold peerOutputSize
    simp only [e7]
    rw [if_pos hl']
    simp only [Option.map_some, gt_iff_lt, UInt8.lt_iff_toNat_lt, hm, hdrSize]
    congr 1
    split
    · rw [if_pos (show UInt8.toNat 0 < _ from ‹_›)]; ring
    · rw [if_neg (show ¬ UInt8.toNat 0 < _ from ‹_›)]
  · refine ⟨_, _, tpInputSizes_eq h, ?_⟩
    rw [List.getElem?_replicate, if_pos hi]
    unfold peerOutputSize inputOf
    rw [hs, hn, ht]
    obtain ⟨k, hk⟩ : ∃ k, c.step = k := ⟨_, rfl⟩
    rw [hk] at h0 h9 h ⊢
    congr 1
    interval_cases k <;> first
      | exact absurd rfl h
      | (simp only [producer, msg2Size, msg4Size, msg5Size, msg6Size, msg8Size, msg9Size, msg19Size, msg21Size, hdrSize,
          Nat.reduceLeDiff, if_true, if_false, Nat.reduceSub]; try ring)

/-- Equal parameters; in the step of the revealed keys peer 2 knows about the complaint about itself. -/
example : Good (Toy.tp3 4) ∧ (Toy.peer 3).n = (Toy.tp3 4).n ∧ (Toy.peer 3).t = (Toy.tp3 4).t ∧
    (Toy.peer 3).step = producer (Toy.tp3 4).step ∧ (Toy.peer 4).step = consumer (Toy.tp3 4).step :=
  ⟨Toy.tp3_good (by decide), rfl, rfl, rfl, rfl⟩

example : Good Toy.tp7 ∧ ({ Toy.peer 7 with index := 2, complaintsLen := 1, myLen := 1 } : PeerState).myLen.toNat =
    Toy.tp7.known.countP fun x => x.toNat % 256 = 1 + 1 :=
  ⟨Toy.tp7_good, by decide⟩

/-! ## C34 -/

/-- **C34.** Up to step 9, a call of a peer with a buffer of another than the announced length fails and changes nothing
but the step counter, which marks the run as failed. -/
theorem C34_peer_wrong_length_partial (clock : ℕ → UInt64) (a : PCall) (p : PeerState) (h9 : p.step ≤ 9)
    (hw : a.input.length ≠ peerInputSize p ∨ a.out.length ≠ peerOutputSize p) :
    ∃ r, r ≠ 0 ∧ a.run G clock p = .ok (r, { p with prev := p.step, step := 99 }, a.out) ∧
      peerNotDone { p with prev := p.step, step := 99 } = false := by
  obtain ⟨r, s, h, hE | hQ⟩ := peerNext_total G (c := p) (out := a.out) (Peer.wp_wrong G (clock := clock) (log := a.log)
    (mlock := a.mlock) (scratch := a.scratch) (rnd := a.rnd) (input := a.input) (s := ⟨p, a.out⟩) h9 hw)
  · obtain ⟨hr, rfl⟩ := hE
    have hr0 : r ≠ 0 := by rcases hr with rfl | rfl <;> decide
    refine ⟨r, hr0, ?_, rfl⟩
    unfold PCall.run
    rw [h]
    unfold pafter
    rw [if_pos hr0]
  · exact hQ.elim

/-- **C34.** A finished or failed run refuses every call, writes nothing and stays failed. -/
theorem C34_peer_ended (clock : ℕ → UInt64) (a : PCall) (p : PeerState) (h : peerNotDone p = false) :
    a.run G clock p = .ok (99, { p with prev := p.step, step := 99 }, a.out) :=
  peerNext_ended G (by unfold peerNotDone at h; simp only [decide_eq_false_iff_not] at h; omega)

/-- **C34, violated.** In step 10 a call with buffers of any length succeeds. -/
theorem C34_peer_step10_violated (clock : ℕ → UInt64) (a : PCall) (p : PeerState) (h : p.step = 10) :
    a.run G clock p = .ok (0, { p with prev := 10, step := 11 }, a.out) := by
  unfold PCall.run
  rw [peerNext_eq, h]
  have : Peer.handler G clock a.log a.mlock a.scratch a.rnd a.input 10 = pure 0 := rfl
  rw [this]
  show C.ok (_, pafter 0 p, _) = _
  unfold pafter
  rw [if_neg (by simp), h]

example : (Toy.pcall [] 143).input.length ≠ peerInputSize (Toy.peer 3) ∧ (Toy.peer 3).step ≤ 9 := ⟨by decide, by decide⟩

/-- The announced sizes of step 10 are 0. -/
example : peerInputSize (Toy.peer 10) = 0 ∧ (Toy.pcall [1, 2] 1).input.length ≠ 0 := ⟨rfl, by decide⟩

/-! ## C38, C39 -/

/-- **C38.** Whatever the inputs are: of any calls of a peer, at most 11 are successful; after 11 calls the peer is done;
and as soon as it is done every further call fails and leaves it so. -/
theorem C38_peer_ends (clock : ℕ → UInt64) (calls : List PCall) (p p' : PeerState) (rs : List Int)
    (h : peerCalls G clock p calls = .ok (rs, p')) :
    rs.length = calls.length ∧ rs.count 0 ≤ 11 ∧ (11 ≤ calls.length → peerNotDone p' = false) ∧
    (peerNotDone p' = false → ∀ clock (a : PCall), ∃ p'', a.run G clock p' = .ok (99, p'', a.out) ∧
      peerNotDone p'' = false) := by
  have key : ∀ (calls : List PCall) (p p' : PeerState) (rs : List Int),
      peerCalls G clock p calls = .ok (rs, p') →
      rs.length = calls.length ∧ rs.count 0 ≤ 11 - p.step ∧ min 11 (p.step + calls.length) ≤ p'.step := by
    intro calls
    induction calls with
    | nil => intro p p' rs h; cases h; simp
    | cons a calls ih =>
      intro p p' rs h
      unfold peerCalls PCall.run at h
      simp only [C.bind_eq_ok, Prod.exists] at h
      obtain ⟨r, p1, o, h1, rs1, p2, h2, h3⟩ := h
      cases h3
      obtain ⟨i1, i2, i3⟩ := ih _ _ _ h2
      obtain ⟨s1, s2, s3⟩ := peerNext_step G h1
      refine ⟨by simp [i1], ?_, ?_⟩
      · rw [List.count_cons]
        by_cases h0 : r = 0
        · have := s3 h0
          have h10 : ¬ 10 < p.step := fun h => s2 h h0
          split <;> omega
        · have := s1 h0
          rw [if_neg (by simpa using h0)]
          omega
      · rw [List.length_cons]
        by_cases h0 : r = 0
        · have := s3 h0
          omega
        · have := s1 h0
          omega
  obtain ⟨k1, k2, k3⟩ := key _ _ _ _ h
  refine ⟨k1, by omega, fun hl => ?_, fun hd clock a => ⟨_, C34_peer_ended G clock a p' hd, rfl⟩⟩
  unfold peerNotDone
  simp only [decide_eq_false_iff_not]
  omega

/-- **C39.** If a call of a peer returns an error, the peer is done, and stays so whatever it is called with. -/
theorem C39_peer_error_ends (clock : ℕ → UInt64) (a : PCall) (p p' : PeerState) (o : Bytes) (r : Int)
    (h : a.run G clock p = .ok (r, p', o)) (hr : r ≠ 0) :
    peerNotDone p' = false ∧
      ∀ calls rs p'', peerCalls G clock p' calls = .ok (rs, p'') → peerNotDone p'' = false ∧ 0 ∉ rs := by
  have h99 : p'.step = 99 := (peerNext_step G h).1 hr
  have nd : ∀ p : PeerState, 10 < p.step → peerNotDone p = false := fun p h => by
    unfold peerNotDone; simp only [decide_eq_false_iff_not]; omega
  refine ⟨nd _ (by omega), fun calls => ?_⟩
  have key : ∀ (calls : List PCall) (p' p'' : PeerState) (rs : List Int), 10 < p'.step →
      peerCalls G clock p' calls = .ok (rs, p'') → peerNotDone p'' = false ∧ 0 ∉ rs := by
    intro calls
    induction calls with
    | nil => intro p' p'' rs h10 h; cases h; exact ⟨nd _ h10, by simp⟩
    | cons a calls ih =>
      intro p' p'' rs h10 h
      unfold peerCalls at h
      rw [C34_peer_ended G clock a p' (nd _ h10)] at h
      simp only [C.ok_bind, C.bind_eq_ok, Prod.exists] at h
      obtain ⟨rs1, c2, h2, h3⟩ := h
      cases h3
      obtain ⟨i1, i2⟩ := ih _ _ _ (by show 10 < 99; decide) h2
      exact ⟨i1, by simp [i2]⟩
  exact fun rs p'' h => key calls p' p'' rs (by omega) h

/-- The hypotheses hold: a call with a wrong length and two more. -/
example (clock : ℕ → UInt64) : ∃ p', peerCalls G clock (Toy.peer 3) [Toy.pcall [] 0, Toy.pcall [] 0, Toy.pcall [] 0] =
    .ok ([1, 99, 99], p') := ⟨_, rfl⟩

example (clock : ℕ → UInt64) : ∃ p' o, (Toy.pcall [] 0).run G clock (Toy.peer 3) = .ok (1, p', o) := ⟨_, _, rfl⟩

/-! ## C46 -/

theorem peerCalls_cons {clock : ℕ → UInt64} {a : PCall} {calls : List PCall} {p p' : PeerState} {rs : List Int}
    (h : peerCalls G clock p (a :: calls) = .ok (rs, p')) :
    ∃ r p1 o rs1, a.run G clock p = .ok (r, p1, o) ∧ peerCalls G clock p1 calls = .ok (rs1, p') ∧ rs = r :: rs1 := by
  unfold peerCalls at h
  simp only [C.bind_eq_ok, Prod.exists] at h
  obtain ⟨r, p1, o, h1, rs1, p2, h2, h3⟩ := h
  cases h3
  exact ⟨r, p1, o, rs1, h1, h2, rfl⟩

/-- Parameters and, after step 0, keys are never changed. -/
theorem peerCalls_params {clock : ℕ → UInt64} : ∀ {calls : List PCall} {p p' : PeerState} {rs : List Int},
    peerCalls G clock p calls = .ok (rs, p') → p'.n = p.n ∧ p'.t = p.t ∧ p'.sid = p.sid ∧ p'.tpSigPk = p.tpSigPk
  | [], _, _, _, h => by cases h; exact ⟨rfl, rfl, rfl, rfl⟩
  | a :: calls, p, p', rs, h => by
    obtain ⟨r, p1, o, rs1, h1, h2, -⟩ := peerCalls_cons G h
    obtain ⟨e1, e2, e3, e4⟩ := peerCalls_params h2
    obtain ⟨f1, f2, f3, -, f5, -⟩ := peerNext_params G h1
    exact ⟨e1.trans f1, e2.trans f2, e3.trans f3, e4.trans f5⟩

/-- From step 10 on nothing changes the share. -/
theorem peerCalls_late {clock : ℕ → UInt64} : ∀ {calls : List PCall} {p p' : PeerState} {rs : List Int}, 10 ≤ p.step →
    peerCalls G clock p calls = .ok (rs, p') → p'.share = p.share ∧ p'.index = p.index
  | [], _, _, _, _, h => by cases h; exact ⟨rfl, rfl⟩
  | a :: calls, p, p', rs, h10, h => by
    obtain ⟨r, p1, o, rs1, h1, h2, -⟩ := peerCalls_cons G h
    obtain ⟨s1, s2, s3⟩ := peerNext_step G h1
    have : 10 ≤ p1.step := by
      by_cases h0 : r = 0
      · have := s3 h0; omega
      · have := s1 h0; omega
    obtain ⟨e1, e2⟩ := peerCalls_late this h2
    exact ⟨e1.trans (peerNext_share G h1 (by omega)), e2.trans (peerNext_keys G h1 (by omega)).1⟩

/-- The share of a confirmed run: the calls `a` and `b` in the states `p8` and `p9` sent the hash of the transcript and
accepted the confirmation of it. -/
structure Confirmed (clock : ℕ → UInt64) (p : PeerState) (calls : List PCall) (p' : PeerState) : Prop where
  split : ∃ (pre post : List PCall) (a b : PCall) (p8 p9 p10 : PeerState) (rs : List Int) (o o' : Bytes) (now : UInt64)
      (sig : B64), calls = pre ++ a :: b :: post ∧
    peerCalls G clock p pre = .ok (rs, p8) ∧ (∀ r ∈ rs, r = 0) ∧ p8.step = 8 ∧
    -- the peer sent the hash of its transcript
    a.run G clock p8 = .ok (0, p9, o) ∧ p9.step = 9 ∧ p9.transcript = p8.transcript ∧
    o = encode sig ⟨20, 143, p8.index, 0, now, p.sid⟩ (Hashes.generichash32 p8.transcript).toList ∧
    sig = Signing.sign p8.sigSk (Header.mk 20 143 p8.index 0 now p.sid).encode ∧
    -- and accepted the confirmation
    b.run G clock p9 = .ok (0, p10, o') ∧ p10.transcript = p8.transcript ∧
    Authentic b.input 113 21 0 0xff p.tpSigPk p.sid ∧ slice b.input 111 2 = okText ∧
    -- the share is computed from the received shares and not changed later
    p'.share = p10.share ∧ p'.share.index = p8.index ∧ p'.index = p8.index ∧
    (p.n.toNat ≤ p9.xshares.length → (∀ s ∈ p9.xshares, s.value.toNat < 2 ^ 255) →
      p'.share.value = B32.ofZ (((p9.xshares.take p.n.toNat).map (·.value.val)).sum))

/-- **C46.** If the share of a peer changes in a history of calls, whatever the inputs, then these calls contain a
successful run up to the confirmation: the peer sent the hash of its transcript, and accepted an authentic "OK" of the trusted
party for the same transcript. In every other history the share stays as it was before the first call. -/
theorem C46_share_confirmed (clock : ℕ → UInt64) (calls : List PCall) (p p' : PeerState) (rs : List Int)
    (h8 : p.step ≤ 8) (h : peerCalls G clock p calls = .ok (rs, p')) (hs : p'.share ≠ p.share) :
    Confirmed G clock p calls p' := by
  induction calls generalizing p rs with
  | nil => cases h; exact absurd rfl hs
  | cons a calls ih =>
    obtain ⟨r, p1, o, rs1, h1, h2, -⟩ := peerCalls_cons G h
    obtain ⟨s1, s2, s3⟩ := peerNext_step G h1
    have hsh : p1.share = p.share := peerNext_share G h1 (by omega)
    obtain ⟨f1, f2, f3, -, f5, -⟩ := peerNext_params G h1
    by_cases h0 : r = 0
    · subst h0
      by_cases hlt : p1.step ≤ 8
      · obtain ⟨pre, post, a', b, p8, p9, p10, rs8, o8, o9, now, sig, e1, e2, e3, e4, e5, e6, e7, e8, e9, e10, e11, e12, e13,
          e14, e15, e16, e17⟩ := (ih p1 rs1 hlt h2 (by rw [hsh]; exact hs)).split
        rw [f3] at e8 e9
        rw [f3, f5] at e12
        rw [f1] at e17
        refine ⟨a :: pre, post, a', b, p8, p9, p10, 0 :: rs8, o8, o9, now, sig, by rw [e1]; rfl, ?_, by simpa using e3, e4, e5,
          e6, e7, e8, e9, e10, e11, e12, e13, e14, e15, e16, e17⟩
        unfold peerCalls
        rw [h1, C.ok_bind]
        dsimp only
        rw [e2]
        rfl
      · rcases s3 rfl with h' | ⟨h', h''⟩ | ⟨h', h''⟩
        · -- the call of step 8
          have e8 : p.step = 8 := by omega
          have e9 : p1.step = 9 := by omega
          have hh : Peer.handler G clock a.log a.mlock a.scratch a.rnd a.input p.step = Peer.step19 clock a.log a.input := by
            rw [e8]; rfl
          have hw := Peer.hash_step19 (clock := clock) (log := a.log) (input := a.input) (s := ⟨p, a.out⟩)
          rw [← hh] at hw
          obtain ⟨s, hE | hQ, hp1, ho⟩ := peerNext_elim G hw h1
          · exact absurd rfl hE
          · obtain ⟨-, q2, q3⟩ := hQ
            have ht1 : p1.transcript = p.transcript := by rw [hp1]; unfold pafter; dsimp only; rw [q2]
            have hk1 : p1.index = p.index := (peerNext_keys G h1 (by omega)).1
            cases calls with
            | nil => cases h2; exact absurd hsh hs
            | cons b calls =>
              obtain ⟨r', p2, o2, rs2, g1, g2, -⟩ := peerCalls_cons G h2
              obtain ⟨t1, t2, t3⟩ := peerNext_step G g1
              have hh : Peer.handler G clock b.log b.mlock b.scratch b.rnd b.input p1.step =
                  Peer.step21 clock b.log b.input := by rw [e9]; rfl
              have hw := Peer.share_step21 (clock := clock) (log := b.log) (input := b.input) (s := ⟨p1, b.out⟩)
              rw [← hh] at hw
              have h10 : 10 ≤ p2.step := by
                by_cases h0 : r' = 0
                · have := t3 h0; omega
                · have := t1 h0; omega
              obtain ⟨l1, l2⟩ := peerCalls_late G h10 g2
              obtain ⟨s', hE' | hQ', hp2, ho'⟩ := peerNext_elim G hw g1
              · exfalso
                apply hs
                rw [l1, hp2, ← hsh]
                exact hE'.2
              · obtain ⟨rfl, ⟨last, k, q4⟩, q5, q6, q7⟩ := hQ'
                have ht2 : p2.transcript = p1.transcript := by
                  rw [peerNext_transcript G g1, e9]; rfl
                have hk2 : p2.index = p1.index := (peerNext_keys G g1 (by omega)).1
                have q8 := C35_accepted_only_if _ _ _ _ _ _ _ _ _ _ _ _ _ (by omega) (by omega) q4
                obtain ⟨sig, hd, body, v1, v2, v3, v4, v5, v6, v7⟩ := q8
                rw [List.drop_zero, List.take_length] at v1
                rw [f5] at v7
                have hsh2 : p2.share = s'.ctx.share := by rw [hp2]; unfold pafter; rfl
                have hfin : ∃ v, s'.ctx.share = ⟨p1.index, v⟩ ∧ (p1.n.toNat ≤ p1.xshares.length →
                    (∀ s ∈ p1.xshares, s.value.toNat < 2 ^ 255) →
                    v = B32.ofZ (((p1.xshares.take p1.n.toNat).map (·.value.val)).sum)) := by
                  have q9 := q7
                  unfold Dkg.finish at q7
                  simp only [C.bind_eq_ok] at q7
                  obtain ⟨l, -, q7⟩ := q7
                  simp only [C.ok.injEq] at q7
                  refine ⟨s'.ctx.share.value, by rw [← q7], fun hl hv => ?_⟩
                  rw [Dkg.finish_eq _ _ _ hl hv] at q9
                  simp only [C.ok.injEq] at q9
                  rw [← q9]
                obtain ⟨v, hv1, hv2⟩ := hfin
                refine ⟨[], calls, a, b, p, p1, p2, [], o, o2, clock p.ticks, _, rfl, rfl, by simp, e8, h1, e9, ht1, ?_, rfl, g1,
                  ht2.trans ht1, ⟨sig, hd, body, v1, by rw [v2, q5], v3, v4, v5, by rw [v6, f3], v7⟩, q6, l1, ?_, ?_, ?_⟩
                · rw [ho, q3]
                  unfold Peer.header encode
                  simp
                · rw [l1, hsh2, hv1, hk1]
                · rw [l2, hk2, hk1]
                · intro hl hx
                  rw [← f1] at hl ⊢
                  rw [l1, hsh2, hv1]
                  exact hv2 hl hx
        · omega
        · exact absurd ((peerCalls_late G (by omega) h2).1.trans hsh) hs
    · exact absurd ((peerCalls_late G (by have := s1 h0; omega) h2).1.trans hsh) hs

end

section
attribute [local instance] Ristretto.toy Toy.hashes Toy.signing Toy.noise Toy.mac

/-- A run that changes the share: the shares 10, 20 and 30 are added. -/
example : ∃ rs p', (Toy.peer 8).step ≤ 8 ∧ peerCalls (ZMod L) (fun _ => 5) (Toy.peer 8) Toy.finalCalls = .ok (rs, p') ∧
    p'.share ≠ (Toy.peer 8).share ∧ p'.share.value.toNat = 60 := by
  obtain ⟨⟨rs, p'⟩, h, hp⟩ := Toy.final
  simp only [Bool.and_eq_true, beq_iff_eq] at hp
  refine ⟨rs, p', by decide, h, fun e => ?_, hp.2⟩
  have : p'.share.value.toNat = 0 := by rw [e]; decide +kernel
  omega

end

section
variable [Signing] [Hashes] (G : Type) [Ristretto G] [NoiseCrypto] [Mac]

/-! ## C47 -/

/-- The transcript of a peer in a successful run is determined by the broadcasts it received. -/
theorem heard_transcript {clock : ℕ → UInt64} : ∀ {calls : List PCall} {p p' : PeerState} {rs : List Int},
    peerCalls G clock p calls = .ok (rs, p') → (∀ r ∈ rs, r = 0) →
    p'.transcript = (heard G clock p calls).foldl updateTranscript p.transcript
  | [], _, _, _, h, _ => by cases h; rfl
  | a :: calls, p, p', rs, h, h0 => by
    obtain ⟨r, p1, o, rs1, h1, h2, rfl⟩ := peerCalls_cons G h
    have hr : r = 0 := h0 r (by simp)
    subst hr
    have ih := heard_transcript h2 fun r hr => h0 r (by simp [hr])
    have ht := peerNext_transcript G h1
    unfold heard
    rw [h1]
    dsimp only
    rw [ih, ht, List.foldl_append]
    split <;> rfl

/-- The transcript of the trusted party in a successful run is determined by the broadcasts it sent. -/
theorem said_transcript {clock : ℕ → UInt64} {log : Bool} {scratch : B32} :
    ∀ {calls : List (Bytes × Bytes)} {c c' : TP} {rs : List Int}, Good c →
    tpCalls G clock log scratch c calls = .ok (rs, c') → (∀ r ∈ rs, r = 0) →
    c'.transcript = (said G clock log scratch c calls).foldl updateTranscript c.transcript
  | [], _, _, _, _, h, _ => by cases h; rfl
  | (input, out) :: calls, c, c', rs, g, h, h0 => by
    unfold tpCalls at h
    simp only [C.bind_eq_ok, Prod.exists] at h
    obtain ⟨r, c1, o, h1, rs1, c2, h2, h3⟩ := h
    cases h3
    have hr : r = 0 := h0 r (by simp)
    subst hr
    have ih := said_transcript (good_next G g h1) h2 fun r hr => h0 r (by simp [hr])
    have ht := tpNext_transcript G g h1
    unfold said
    rw [h1]
    dsimp only
    rw [ih, ht, List.foldl_append]
    split <;> rfl

/-- The start of the trusted party succeeds only with these parameters, and gives this context and message. -/
theorem startTp_eq {ctx c : TP} {now eps : UInt64} {n t : UInt8} {name msg0 m : Bytes} {sid seed : B32}
    (h : startTp ctx now eps n t name sid seed msg0 = .ok (0, c, m)) :
    m = encode (Signing.sign (Signing.skOf seed) (Header.mk 0 177 0 0xff now sid).encode) ⟨0, 177, 0, 0xff, now, sid⟩
        ((Signing.pkOf seed).toList ++ (Hashes.generichash32 (beBytes 2 (name.length + 20) ++ dstPrefix ++ name)).toList ++
          [n, t]) ∧
      c.sid = sid ∧ c.sigPk = Signing.pkOf seed ∧ c.transcript = updateTranscript transcriptInit m := by
  unfold startTp at h
  split at h
  · cases h
  split at h
  · cases h
  split at h
  · cases h
  split at h
  · cases h
  rename_i hl
  simp only [not_not, msg0Size] at hl
  simp only [C.bind_eq_ok] at h
  obtain ⟨m1, h1, m2, h2, m3, h3, m4, h4, m5, h5, h⟩ := h
  simp only [C.ok.injEq, Prod.mk.injEq, true_and] at h
  obtain ⟨rfl, rfl⟩ := h
  refine ⟨?_, rfl, rfl, rfl⟩
  obtain ⟨a, b, c, d, rfl, ha, hb, hc, hd⟩ : ∃ a b c d : Bytes, msg0 = a ++ (b ++ (c ++ d)) ∧ a.length = 111 ∧
      b.length = 32 ∧ c.length = 32 ∧ d.length = 2 := by
    refine ⟨msg0.take 111, (msg0.drop 111).take 32, (msg0.drop 143).take 32, msg0.drop 175, ?_, ?_, ?_, ?_, ?_⟩
    · have e1 : (msg0.drop 143).take 32 ++ msg0.drop 175 = msg0.drop 143 := by
        rw [show (175 : ℕ) = 143 + 32 from rfl, ← List.drop_drop, List.take_append_drop]
      have e2 : (msg0.drop 111).take 32 ++ msg0.drop 143 = msg0.drop 111 := by
        rw [show (143 : ℕ) = 111 + 32 from rfl, ← List.drop_drop, List.take_append_drop]
      rw [e1, e2, List.take_append_drop]
    all_goals simp; try omega
  obtain ⟨x, y, rfl⟩ : ∃ x y, d = [x, y] := by
    match d, hd with
    | [x, y], _ => exact ⟨x, y, rfl⟩
  rw [wr_mid (by omega) (by simp [hb])] at h1
  cases h1
  rw [← List.append_assoc, wr_mid (by simp [ha]) (by simp [hc])] at h2
  cases h2
  rw [← List.append_assoc, show [x, y] = [x] ++ [y] from rfl, wr_mid (by simp [ha]) (by simp)] at h3
  cases h3
  rw [← List.append_assoc, show [y] = [y] ++ [] from rfl, wr_mid (by simp [ha]) (by simp)] at h4
  cases h4
  rw [sendMsg_eq (by simp [ha])] at h5
  cases h5
  simp [List.drop_append, ha, encode, msg0Size]

theorem startTp_ok {ctx c : TP} {now eps : UInt64} {n t : UInt8} {name msg0 m : Bytes} {sid seed : B32}
    (h : startTp ctx now eps n t name sid seed msg0 = .ok (0, c, m)) :
    ∃ dst : B32, m = encode (Signing.sign (Signing.skOf seed) (Header.mk 0 177 0 0xff now sid).encode)
        ⟨0, 177, 0, 0xff, now, sid⟩ ((Signing.pkOf seed).toList ++ dst.toList ++ [n, t]) ∧
      c.sid = sid ∧ c.sigPk = Signing.pkOf seed ∧ c.transcript = updateTranscript transcriptInit m := ⟨_, startTp_eq h⟩

theorem rd_slice_eq {b x : Bytes} {off k : ℕ} (h : rd b off k = .ok x) : x = slice b off k := by
  unfold rd at h
  split at h
  · cases h; rfl
  · cases h

theorem ld_getD_eq {b : Bytes} {x : UInt8} {i : ℕ} (h : ld b i = .ok x) : x = b.getD i 0 := by
  unfold ld at h
  rw [List.getD_eq_getElem?_getD]
  split at h
  · cases h; simp [*]
  · cases h

/-- A peer that accepts a message of the trusted party takes over its parameters. -/
theorem startPeer_ok {ctx p : PeerState} {now eps : UInt64} {log : Bool} {ltSk : B64} {m : Bytes}
    (h : startPeer ctx now eps log ltSk m = .ok (0, p)) :
    p.sid = toB32 (slice m 79 32) ∧ p.tpSigPk = toB32 (slice m 111 32) ∧ p.n = m.getD 175 0 ∧ p.t = m.getD 176 0 ∧
    p.transcript = updateTranscript transcriptInit (m.take 177) ∧ p.step = 0 ∧ p.eps = eps ∧ p.ltSk = ltSk ∧
    p.complaintsLen = 0 ∧ p.myLen = 0 ∧ p.share = ctx.share ∧ p.dev = .null ∧
    2 ≤ p.t.toNat ∧ p.t.toNat < p.n.toNat ∧ p.n.toNat ≤ 128 ∧
    ∃ k, recvMsg now m 0 177 0 0 0xff p.tpSigPk p.sid eps 0 = .ok (0, p.tpLastTs, k) := by
  have h : startPeer ctx now eps false ltSk m = .ok (0, p) := by
    cases log
    · exact h
    · unfold startPeer at h ⊢
      simp only [if_true] at h
      rw [C.bind_eq_ok] at h
      obtain ⟨_, _, h⟩ := h
      simpa using h
  unfold startPeer at h
  simp only [Bool.false_eq_true, if_false, C.ok_bind, C.bind_eq_ok, Prod.exists] at h
  obtain ⟨pk, h1, sid, h2, r, last, k, h3, h⟩ := h
  have g1 := rd_slice_eq h1
  have g2 := rd_slice_eq h2
  split at h
  · have := recvMsg_range h3
    simp only [C.ok.injEq, Prod.mk.injEq] at h
    omega
  rename_i h0
  have h0 : r = 0 := by simpa using h0
  subst h0
  simp only [C.bind_eq_ok] at h
  obtain ⟨n, h4, t, h5, h⟩ := h
  have g4 := ld_getD_eq h4
  have g5 := ld_getD_eq h5
  split at h
  · cases h
  rename_i ht
  split at h
  · cases h
  rename_i htn
  split at h
  · cases h
  rename_i hn
  simp only [C.bind_eq_ok] at h
  obtain ⟨m', h6, h⟩ := h
  have g6 := rd_slice_eq h6
  simp only [C.ok.injEq, Prod.mk.injEq, true_and] at h
  subst h
  simp only [ge_iff_le, gt_iff_lt, UInt8.lt_iff_toNat_lt, UInt8.le_iff_toNat_le, not_lt, not_le] at ht htn hn
  refine ⟨by rw [g2], by rw [g1]; rfl, g4, g5, by rw [g6]; rfl, rfl, rfl, rfl, rfl, rfl, rfl, rfl, by simpa using ht,
    by simpa using htn, by simpa using hn, ⟨k, h3⟩⟩

/-- **C47.** The trusted party and a peer that accepted its start message start with the same transcript. -/
theorem C47_start (ctx c0 : TP) (ctx' p0 : PeerState) (now now' eps eps' : UInt64) (n t : UInt8)
    (name msg0 m : Bytes) (sid seed : B32) (log : Bool) (ltSk : B64)
    (hc : startTp ctx now eps n t name sid seed msg0 = .ok (0, c0, m))
    (hp : startPeer ctx' now' eps' log ltSk m = .ok (0, p0)) : p0.transcript = c0.transcript := by
  obtain ⟨dst, hm, -, -, ht⟩ := startTp_ok hc
  rw [ht, (startPeer_ok hp).2.2.2.2.1, List.take_of_length_le]
  rw [hm, encode_length]
  simp

/-- **C47.** If the trusted party and a peer have the same transcript, then they still have the same, and so the same hash,
after successful calls in which the peer received the broadcasts that the trusted party sent. -/
theorem C47_same_broadcasts (c c' : TP) (p p' : PeerState) (g : Good c) (ht : p.transcript = c.transcript)
    (clock clock' : ℕ → UInt64) (log : Bool) (scratch : B32) (calls : List (Bytes × Bytes)) (calls' : List PCall)
    (rs rs' : List Int) (h : tpCalls G clock log scratch c calls = .ok (rs, c')) (h0 : ∀ r ∈ rs, r = 0)
    (h' : peerCalls G clock' p calls' = .ok (rs', p')) (h0' : ∀ r ∈ rs', r = 0)
    (hs : heard G clock' p calls' = said G clock log scratch c calls) :
    p'.transcript = c'.transcript ∧
      Hashes.generichash32 p'.transcript = Hashes.generichash32 c'.transcript := by
  have key : p'.transcript = c'.transcript := by
    rw [heard_transcript G h' h0', said_transcript G g h h0, hs, ht]
  exact ⟨key, by rw [key]⟩

/-- **C47.** Peers that started with the same message and received the same broadcasts have the same transcript. -/
theorem C47_peers_agree (clock clock' : ℕ → UInt64) (p p' q q' : PeerState) (calls calls' : List PCall) (rs rs' : List Int)
    (h : peerCalls G clock p calls = .ok (rs, p')) (h0 : ∀ r ∈ rs, r = 0)
    (h' : peerCalls G clock' q calls' = .ok (rs', q')) (h0' : ∀ r ∈ rs', r = 0) (hpq : p.transcript = q.transcript)
    (hs : heard G clock p calls = heard G clock' q calls') : p'.transcript = q'.transcript := by
  rw [heard_transcript G h h0, heard_transcript G h' h0', hs, hpq]

/-! ## C51 -/

/-- **C51.** The trusted party accepts exactly these parameters. (The code demands `t < n`, but not `2 ≤ t`.) -/
theorem C51_tp_accepts_partial (ctx : TP) (now eps : UInt64) (n t : UInt8) (name msg0 : Bytes) (sid seed : B32) :
    ∃ r c m, startTp ctx now eps n t name sid seed msg0 = .ok (r, c, m) ∧
      (r = 0 ↔ 2 ≤ n.toNat ∧ n.toNat ≤ 128 ∧ t.toNat < n.toNat ∧ 1 ≤ name.length ∧ name.length ≤ 1024 ∧
        msg0.length = 177) ∧
      (r ≠ 0 → c = ctx ∧ m = msg0) := by
  have e2 : UInt8.toNat 2 = 2 := rfl
  have e128 : UInt8.toNat 128 = 128 := rfl
  unfold startTp
  split
  · rename_i h
    simp only [gt_iff_lt, ge_iff_le, UInt8.lt_iff_toNat_lt, UInt8.le_iff_toNat_le] at h
    exact ⟨1, _, _, rfl, ⟨fun h => (by cases h), fun h' => by omega⟩, fun _ => ⟨rfl, rfl⟩⟩
  rename_i hp
  simp only [not_or, gt_iff_lt, ge_iff_le, UInt8.lt_iff_toNat_lt, UInt8.le_iff_toNat_le] at hp
  split
  · exact ⟨2, _, _, rfl, ⟨fun h => (by cases h), fun h' => by omega⟩, fun _ => ⟨rfl, rfl⟩⟩
  split
  · exact ⟨3, _, _, rfl, ⟨fun h => (by cases h), fun h' => by omega⟩, fun _ => ⟨rfl, rfl⟩⟩
  split
  · rename_i h
    rw [msg0Size] at h
    exact ⟨4, _, _, rfl, ⟨fun h => (by cases h), fun h' => by omega⟩, fun _ => ⟨rfl, rfl⟩⟩
  rename_i h1 h2 h3
  simp only [not_not, msg0Size] at h3
  have len : ∀ {b b' x : Bytes} {o : ℕ}, b.length = 177 → o + x.length ≤ 177 → ∃ b', wr b o x = .ok b' ∧ b'.length = 177 :=
    fun hb hx => ⟨_, wr_ok (by omega), by rw [wr_length (wr_ok (by omega)), hb]⟩
  dsimp only
  obtain ⟨m1, k1, l1⟩ := len (b' := msg0) h3 (show 111 + (Signing.pkOf seed).toList.length ≤ 177 by simp)
  obtain ⟨m2, k2, l2⟩ := len (b' := msg0) l1 (show 143 + (Hashes.generichash32 (beBytes 2 (name.length + 20) ++ dstPrefix ++
    name)).toList.length ≤ 177 by simp)
  obtain ⟨m3, k3, l3⟩ := len (b' := msg0) l2 (show 175 + [n].length ≤ 177 by simp)
  obtain ⟨m4, k4, l4⟩ := len (b' := msg0) l3 (show 176 + [t].length ≤ 177 by simp)
  rw [k1, C.ok_bind, k2, C.ok_bind, k3, C.ok_bind, k4, C.ok_bind, sendMsg_eq (by omega), C.ok_bind]
  exact ⟨0, _, _, rfl, ⟨fun _ => by omega, fun _ => rfl⟩, fun h => absurd rfl h⟩

/-- **C51.** A peer accepts a start message exactly if it is an acceptable message of the trusted party with
`2 ≤ t < n ≤ 128`, and takes over `n` and `t`. -/
theorem C51_peer_accepts (ctx : PeerState) (now eps : UInt64) (log : Bool) (ltSk : B64) (m : Bytes) (hl : m.length = 177) :
    ∃ r p, startPeer ctx now eps log ltSk m = .ok (r, p) ∧
      (r = 0 ↔ (∃ last k, recvMsg now m 0 177 0 0 0xff (toB32 (slice m 111 32)) (toB32 (slice m 79 32)) eps 0 =
          .ok (0, last, k)) ∧
        2 ≤ (m.getD 176 0).toNat ∧ (m.getD 176 0).toNat < (m.getD 175 0).toNat ∧ (m.getD 175 0).toNat ≤ 128) ∧
      (r = 0 → p.n = m.getD 175 0 ∧ p.t = m.getD 176 0) := by
  have e2 : UInt8.toNat 2 = 2 := rfl
  have e128 : UInt8.toNat 128 = 128 := rfl
  have hlog : startPeer ctx now eps log ltSk m = startPeer ctx now eps false ltSk m := by
    cases log
    · rfl
    · unfold startPeer
      simp only [if_true]
      rw [rd_ok (by simp [hl, msg0Size])]
      simp
  obtain ⟨⟨r, last, k⟩, hr⟩ : ∃ x, recvMsg now m 0 177 0 0 0xff (toB32 (slice m 111 32)) (toB32 (slice m 79 32)) eps 0 =
      .ok x := recvMsg_safe (by omega) (by omega)
  have hrange := recvMsg_range hr
  have g : ∀ i, i < 177 → ld m i = .ok (m.getD i 0) := fun i hi => by
    rw [ld_ok (by omega), List.getD_eq_getElem?_getD, List.getElem?_eq_getElem (by omega)]; rfl
  have main : startPeer ctx now eps false ltSk m = _ := rfl
  conv at main =>
    rhs
    unfold startPeer
    simp only [Bool.false_eq_true, if_false, C.ok_bind]
    rw [rd_slice' (by simp [hl, hdrSize]), C.ok_bind, rd_slice' (by simp [hl]), C.ok_bind]
    simp only [hdrSize, msg0Size]
    rw [hr, C.ok_bind]
    simp only
    rw [g _ (by omega), g _ (by omega), C.ok_bind, C.ok_bind, rd_slice' (by simp [hl]), C.ok_bind]
  rw [hlog, main, hr]
  by_cases h0 : r = 0
  · subst h0
    simp only [ne_eq, not_true_eq_false, if_false]
    have hex : ∃ last' k', (C.ok ((0 : Int), last, k) : C (Int × UInt64 × ℕ)) = .ok (0, last', k') := ⟨_, _, rfl⟩
    simp only [Nat.reduceAdd]
    split
    · rename_i h
      simp only [UInt8.lt_iff_toNat_lt, e2] at h
      exact ⟨1, _, rfl, ⟨fun h => (by cases h), fun h' => by omega⟩, fun h => by cases h⟩
    split
    · rename_i h
      simp only [ge_iff_le, UInt8.le_iff_toNat_le] at h
      exact ⟨2, _, rfl, ⟨fun h => (by cases h), fun h' => by omega⟩, fun h => by cases h⟩
    split
    · rename_i h
      simp only [gt_iff_lt, UInt8.lt_iff_toNat_lt, e128] at h
      exact ⟨3, _, rfl, ⟨fun h => (by cases h), fun h' => by omega⟩, fun h => by cases h⟩
    rename_i h1 h2 h3
    simp only [ge_iff_le, gt_iff_lt, UInt8.lt_iff_toNat_lt, UInt8.le_iff_toNat_le, e2, e128] at h1 h2 h3
    exact ⟨0, _, rfl, ⟨fun _ => ⟨hex, by omega, by omega, by omega⟩, fun _ => rfl⟩, fun _ => ⟨rfl, rfl⟩⟩
  · rw [if_pos h0]
    refine ⟨64 + r, _, rfl, ⟨fun h => by omega, fun h => ?_⟩, fun h => by omega⟩
    obtain ⟨⟨last', k', h⟩, -⟩ := h
    cases h
    exact absurd rfl h0

/-- **C51.** If the trusted party started with `2 ≤ t`, a peer that gets its message in time starts too, with the same
parameters, session and transcript. -/
theorem C51_same_parameters_partial (ctx c : TP) (ctx' : PeerState) (now now' eps eps' : UInt64) (n t : UInt8)
    (name msg0 m : Bytes) (sid seed : B32) (log : Bool) (ltSk : B64)
    (h : startTp ctx now eps n t name sid seed msg0 = .ok (0, c, m)) (ht : 2 ≤ t.toNat)
    (hw : InWindow now' eps' 0 now) (hnw : NoWrap now' eps' 0) :
    ∃ p, startPeer ctx' now' eps' log ltSk m = .ok (0, p) ∧ p.n = c.n ∧ p.t = c.t ∧ p.sid = c.sid ∧
      p.tpSigPk = c.sigPk ∧ p.transcript = c.transcript ∧ p.tpLastTs = now ∧ p.step = 0 := by
  obtain ⟨dst, hm, hsid, hpk, htr⟩ := startTp_ok h
  obtain ⟨hn, ht', -, -, -, n2, n128, tn⟩ := start_ok h
  have hl : m.length = 177 := by rw [hm, encode_length]; simp
  obtain ⟨r, p, hp, h0, -⟩ := C51_peer_accepts ctx' now' eps' log ltSk m hl
  have hbody : m.drop 111 = (Signing.pkOf seed).toList ++ dst.toList ++ [n, t] := by rw [hm, encode_body]
  have e1 : slice m 111 32 = (Signing.pkOf seed).toList := by
    unfold slice; rw [hbody]; simp
  have e2 : slice m 79 32 = sid.toList := by
    unfold slice; rw [hm, encode_sid]
  have e3 : m.getD 175 0 = n := by
    rw [List.getD_eq_getElem?_getD, show 175 = 111 + 64 from rfl, ← List.getElem?_drop, hbody,
      List.getElem?_append_right (by simp)]
    simp
  have e4 : m.getD 176 0 = t := by
    rw [List.getD_eq_getElem?_getD, show 176 = 111 + 65 from rfl, ← List.getElem?_drop, hbody,
      List.getElem?_append_right (by simp)]
    simp
  have hacc : ∃ last k, recvMsg now' m 0 177 0 0 0xff (toB32 (slice m 111 32)) (toB32 (slice m 79 32)) eps' 0 =
      .ok (0, last, k) := by
    obtain ⟨r, last, k, g1, g2⟩ := C35_accepted_iff now' m 0 177 0 0 0xff (toB32 (slice m 111 32)) (toB32 (slice m 79 32))
      eps' 0 (by omega) (by omega) hnw
    have : r = 0 := g2.2 ⟨_, _, _, by rw [List.drop_zero, ← hl, List.take_length]; exact hm, rfl, rfl, rfl, rfl,
      by rw [e2, toB32_toList], hw, by rw [e1, toB32_toList]; exact Signing.verify_sign _ _⟩
    exact ⟨last, k, by rw [g1, this]⟩
  have hr : r = 0 := h0.2 ⟨hacc, by rw [e4]; exact ht, by rw [e3, e4]; exact tn, by rw [e3]; exact n128⟩
  subst hr
  obtain ⟨q1, q2, q3, q4, q5, q6, -, -, -, -, -, -, -, -, -, k, q7⟩ := startPeer_ok hp
  refine ⟨p, hp, by rw [q3, e3, hn], by rw [q4, e4, ht'], by rw [q1, e2, hsid, toB32_toList], by rw [q2, e1, hpk, toB32_toList],
    by rw [q5, htr, ← hl, List.take_length], ?_, q6⟩
  have hd : (m.drop 0).take 177 = encode (Signing.sign (Signing.skOf seed) (Header.mk 0 177 0 0xff now sid).encode)
        ⟨0, 177, 0, 0xff, now, sid⟩ ((Signing.pkOf seed).toList ++ dst.toList ++ [n, t]) := by
    rw [List.drop_zero, ← hl, List.take_length]; exact hm
  rw [recvMsg_encode (by omega) (by omega) hd] at q7
  have q8 := congrArg (fun x : C (Int × UInt64 × ℕ) => match x with | .ok y => y.1 | .ub _ => 1) q7
  have q9 := congrArg (fun x : C (Int × UInt64 × ℕ) => match x with | .ok y => y.2.1 | .ub _ => 0) q7
  simp only at q8 q9
  rw [← q9, recvPure_last q8]

/-- **C51.** After a first successful call the index of a peer is the recipient of an authentic message of the trusted party
and is in `1..128`, and it stays the same in all later successful calls. (The code does not check that it is at most `n`.) -/
theorem C51_index_partial (clock : ℕ → UInt64) (a : PCall) (calls : List PCall) (p p' : PeerState) (rs : List Int)
    (h0 : p.step = 0) (h : peerCalls G clock p (a :: calls) = .ok (rs, p')) (hrs : ∀ r ∈ rs, r = 0) :
    p'.index = a.input.getD 70 0 ∧ 1 ≤ p'.index.toNat ∧ p'.index.toNat ≤ 128 ∧
      Authentic a.input 111 1 0 p'.index p.tpSigPk p.sid := by
  obtain ⟨r, p1, o, rs1, h1, h2, rfl⟩ := peerCalls_cons G h
  have hr : r = 0 := hrs r (by simp)
  subst hr
  have key : p1.index = a.input.getD 70 0 ∧ 1 ≤ p1.index.toNat ∧ p1.index.toNat ≤ 128 ∧
      Authentic a.input 111 1 0 p1.index p.tpSigPk p.sid ∧ p1.step = 1 := by
    have hst : p1.step = 1 := by
      rcases (peerNext_step G h1).2.2 rfl with h' | h' | h' <;> omega
    by_cases hw : a.input.length ≠ peerInputSize p ∨ a.out.length ≠ peerOutputSize p
    · obtain ⟨s, hs, -, -⟩ := peerNext_elim G (Peer.wp_wrong G (s := ⟨p, a.out⟩) (by show p.step ≤ 9; omega) hw) h1
      rcases hs with ⟨h', -⟩ | h'
      · omega
      · exact h'.elim
    · simp only [not_or, not_not] at hw
      unfold peerInputSize peerOutputSize at hw
      rw [h0] at hw
      simp only [msg1Size, msg2Size] at hw
      have hin : a.input.length = 111 := hw.1
      have hwp : H.Wp (Peer.step23 clock a.log a.rnd a.input) True (fun r _ => r ≠ 0) (fun _ s =>
          s.ctx.index = a.input.getD 70 0 ∧ 1 ≤ s.ctx.index.toNat ∧ s.ctx.index.toNat ≤ 128 ∧
            Authentic a.input 111 1 0 s.ctx.index p.tpSigPk p.sid) ⟨p, a.out⟩ := by
        refine Peer.wp_step23 hin (by simpa using hw.2) ?_ ?_ ?_
        · intro r last k hr hne
          have := recvMsg_range hr
          omega
        · intro _ _ _ _ h
          exact absurd h (by decide)
        · intro last k hr g1 g2
          refine ⟨rfl, g1, g2, ?_⟩
          obtain ⟨sig, hd, body, q1, q2⟩ :=
            C35_accepted_only_if _ _ _ _ _ _ _ _ _ _ _ _ _ (by omega) (by omega) hr
          rw [List.drop_zero, ← hin, List.take_length] at q1
          exact ⟨sig, hd, body, q1, q2⟩
      have hh : Peer.handler G clock a.log a.mlock a.scratch a.rnd a.input p.step = Peer.step23 clock a.log a.rnd a.input := by
        rw [h0]; rfl
      rw [← hh] at hwp
      obtain ⟨s, hs, rfl, -⟩ := peerNext_elim G hwp h1
      rcases hs with h' | h'
      · exact absurd rfl h'
      · exact ⟨h'.1, h'.2.1, h'.2.2.1, h'.2.2.2, hst⟩
  obtain ⟨k1, k2, k3, k4, k5⟩ := key
  have stay : ∀ (calls : List PCall) (q q' : PeerState) (rs : List Int), 1 ≤ q.step →
      peerCalls G clock q calls = .ok (rs, q') → (∀ r ∈ rs, r = 0) → q'.index = q.index := by
    intro calls
    induction calls with
    | nil => intro q q' rs _ h _; cases h; rfl
    | cons b calls ih =>
      intro q q' rs hq h hz
      obtain ⟨r, q1, o, rs1, g1, g2, rfl⟩ := peerCalls_cons G h
      have hr : r = 0 := hz r (by simp)
      subst hr
      have hq1 : 1 ≤ q1.step := by
        rcases (peerNext_step G g1).2.2 rfl with h' | h' | h' <;> omega
      rw [ih q1 q' rs1 hq1 g2 fun r hr => hz r (by simp [hr])]
      exact (peerNext_keys G g1 (by omega)).1
  rw [stay calls p1 p' rs1 (by omega) h2 fun r hr => hrs r (by simp [hr])]
  exact ⟨k1, k2, k3, k4⟩

/-- **C51**, violated: the trusted party starts with threshold 1, and no peer accepts its message. -/
theorem C51_threshold_violated (ctx : TP) (now eps : UInt64) (sid seed : B32) :
    ∃ c m, startTp ctx now eps 3 1 [65] sid seed (List.replicate 177 0) = .ok (0, c, m) ∧
      ∀ (ctx' : PeerState) (now' eps' : UInt64) (log : Bool) (ltSk : B64) (r : Int) (p : PeerState),
        startPeer ctx' now' eps' log ltSk m = .ok (r, p) → r ≠ 0 := by
  obtain ⟨r, c, m, h, h0, -⟩ := C51_tp_accepts_partial ctx now eps 3 1 [65] (List.replicate 177 0) sid seed
  have : r = 0 := h0.2 ⟨by decide, by decide, by decide, by simp, by simp, List.length_replicate⟩
  subst this
  refine ⟨c, m, h, ?_⟩
  intro ctx' now' eps' log ltSk r p hp hr
  subst hr
  obtain ⟨dst, hm, -, -, -⟩ := startTp_ok h
  have hl : m.length = 177 := by rw [hm, encode_length]; simp
  have hbody : m.drop 111 = (Signing.pkOf seed).toList ++ dst.toList ++ [3, 1] := by rw [hm, encode_body]
  have e4 : m.getD 176 0 = 1 := by
    rw [List.getD_eq_getElem?_getD, show 176 = 111 + 65 from rfl, ← List.getElem?_drop, hbody,
      List.getElem?_append_right (by simp)]
    simp
  obtain ⟨r, p', h', g, -⟩ := C51_peer_accepts ctx' now' eps' log ltSk m hl
  rw [hp] at h'
  cases h'
  have := (g.1 rfl).2.1
  rw [e4] at this
  exact absurd this (by decide)

end

section
attribute [local instance] Ristretto.toy Toy.hashes Toy.signing Toy.noise Toy.mac

/-- **C51**, violated: one of three peers accepts the index 100. -/
theorem C51_index_violated : ∃ p' o, peerNext (ZMod L) (fun _ => 5) true true zero32 Toy.rnd (Toy.peer 0)
    (Toy.msg 111 1 0 100 []) (List.replicate 239 0) = .ok (0, p', o) ∧ p'.n.toNat = 3 ∧ p'.index.toNat = 100 := by
  obtain ⟨⟨r, p', o⟩, h, hp⟩ := Toy.isOk_elim (p := fun x => x.1 == 0 && x.2.1.n.toNat == 3 && x.2.1.index.toNat == 100)
    (x := peerNext (ZMod L) (fun _ => 5) true true zero32 Toy.rnd (Toy.peer 0)
      (Toy.msg 111 1 0 100 []) (List.replicate 239 0)) (by decide +kernel)
  simp only [Bool.and_eq_true, beq_iff_eq] at hp
  obtain ⟨⟨rfl, h2⟩, h3⟩ := hp
  exact ⟨p', o, h, h2, h3⟩

/-- The hypotheses of `C51_index_partial` can be met. -/
example : ∃ rs p', (Toy.peer 0).step = 0 ∧
    peerCalls (ZMod L) (fun _ => 5) (Toy.peer 0) [Toy.pcall (Toy.msg 111 1 0 2 []) 239] = .ok (rs, p') ∧
    (∀ r ∈ rs, r = 0) ∧ p'.index = 2 := by
  obtain ⟨⟨rs, p'⟩, h, hp⟩ := Toy.isOk_elim (p := fun x => x.1 == [0] && x.2.index == 2)
    (x := peerCalls (ZMod L) (fun _ => 5) (Toy.peer 0) [Toy.pcall (Toy.msg 111 1 0 2 []) 239]) (by decide +kernel)
  simp only [Bool.and_eq_true, beq_iff_eq] at hp
  obtain ⟨rfl, h2⟩ := hp
  exact ⟨_, p', rfl, h, by simp, h2⟩

/-- A state as the trusted party and the peers use it before they start. -/
example : ∃ c m p, startTp (Toy.tp 0) 5 10 3 2 [65] zero32 zero32 (List.replicate 177 0) = .ok (0, c, m) ∧
    InWindow 6 4 0 5 ∧ NoWrap 6 4 0 ∧
    startPeer (Toy.peer 0) 6 4 true (toB64 []) m = .ok (0, p) ∧ p.n = 3 ∧ p.t = 2 := by
  obtain ⟨r, c, m, h, h0, -⟩ := C51_tp_accepts_partial (Toy.tp 0) 5 10 3 2 [65] (List.replicate 177 0) zero32 zero32
  have : r = 0 := h0.2 ⟨by decide, by decide, by decide, by simp, by simp, List.length_replicate⟩
  subst this
  have hnw : NoWrap 6 4 0 := by unfold NoWrap; decide
  obtain ⟨p, hp, e1, e2, -⟩ := C51_same_parameters_partial _ _ (Toy.peer 0) 5 6 10 4 3 2 _ _ _ _ _ true (toB64 []) h
    (by decide) (by unfold InWindow; decide) hnw
  obtain ⟨hn, ht, -⟩ := start_ok h
  exact ⟨c, m, p, h, by unfold InWindow; decide, hnw, hp, by rw [e1, hn], by rw [e2, ht]⟩

/-- A broadcast of complaints by the trusted party, received by a peer. -/
def bcCalls : List (Bytes × Bytes) := [(Toy.msg 115 9 1 0xff [2, 2, 3, 0] ++ Toy.msg 115 9 2 0xff [0, 0, 0, 0] ++
  Toy.msg 115 9 3 0xff [1, 1, 0, 0], List.replicate 456 0)]

def bcSaid : List Bytes := said (ZMod L) (fun _ => 5) true zero32 (Toy.tp3 6) bcCalls

def bcPeer : List PCall := [Toy.pcall (bcSaid.headD []) 0]

/-- The hypotheses of `C47_same_broadcasts` can be met, with transcripts that change. -/
example : ∃ rs rs' c' p', Good (Toy.tp3 6) ∧ (Toy.peer 6).transcript = (Toy.tp3 6).transcript ∧
    tpCalls (ZMod L) (fun _ => 5) true zero32 (Toy.tp3 6) bcCalls = .ok (rs, c') ∧ (∀ r ∈ rs, r = 0) ∧
    peerCalls (ZMod L) (fun _ => 5) (Toy.peer 6) bcPeer = .ok (rs', p') ∧ (∀ r ∈ rs', r = 0) ∧
    heard (ZMod L) (fun _ => 5) (Toy.peer 6) bcPeer = bcSaid ∧ c'.transcript.length = 460 := by
  obtain ⟨⟨rs, c'⟩, h, hp⟩ := Toy.isOk_elim (p := fun x => x.1 == [0] && x.2.transcript.length == 460)
    (x := tpCalls (ZMod L) (fun _ => 5) true zero32 (Toy.tp3 6) bcCalls) (by decide +kernel)
  obtain ⟨⟨rs', p'⟩, h', hp'⟩ := Toy.isOk_elim (p := fun x => x.1 == [0])
    (x := peerCalls (ZMod L) (fun _ => 5) (Toy.peer 6) bcPeer) (by decide +kernel)
  simp only [Bool.and_eq_true, beq_iff_eq] at hp hp'
  obtain ⟨rfl, hl⟩ := hp
  subst hp'
  exact ⟨_, _, c', p', Toy.tp3_good (by decide), rfl, h, by simp, h', by simp, by decide +kernel, hl⟩

end

end Verif.Props
