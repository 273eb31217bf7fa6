import Verif.Proofs.PeerSafe
import Verif.Proofs.PeerToy
import Verif.Props.PeerRun

/-!
# Memory safety of the peers and their complaints: C50 and C43
-/

set_option linter.unusedSectionVars false

namespace Verif.Props

open TpDkg Wire Spec.Wire

section
variable [Signing] [Hashes] [NoiseCrypto] [Mac] (G : Type) [Ristretto G]

/-- A peer that was started and got buffers of the documented sizes in which the sessions are NULL, as in
`src/tests/tp-dkg.c:431-434`. -/
def Started (c : PeerState) : Prop :=
  ∃ ctx now eps log ltSk msg0 p sigPks noisePks outs ins shares xshares commitments complaints mine lastTs,
    startPeer ctx now eps log ltSk msg0 = .ok (0, p) ∧
    peerSetBufs p sigPks noisePks outs ins shares xshares commitments complaints mine lastTs = .ok c ∧
    sigPks.length = p.n.toNat ∧ noisePks.length = p.n.toNat ∧ outs = List.replicate p.n.toNat .null ∧
    ins = List.replicate p.n.toNat .null ∧ shares.length = p.n.toNat ∧ xshares.length = p.n.toNat ∧
    commitments.length = p.n.toNat * p.t.toNat ∧ complaints.length = p.n.toNat * p.n.toNat ∧ mine.length = p.n.toNat ∧
    lastTs.length = p.n.toNat

theorem started_ready {c : PeerState} (h : Started c) : Ready c := by
  obtain ⟨ctx, now, eps, log, ltSk, msg0, p, sigPks, noisePks, outs, ins, shares, xshares, commitments, complaints, mine,
    lastTs, hp, hc, h1, h2, h3, h4, h5, h6, h7, h8, h9, h10⟩ := h
  obtain ⟨-, -, -, -, -, hst, -, -, hcl, hml, -, hdev, ht2, htn, hn, -⟩ := startPeer_ok hp
  unfold peerSetBufs at hc
  rw [C.bind_eq_ok] at hc
  obtain ⟨l, hl, hc⟩ := hc
  cases hc
  have hll := wr_length hl
  refine ⟨⟨ht2, htn, hn, by dsimp only; rw [hll, h10], h1, h2, by dsimp only; rw [h3, List.length_replicate],
    by dsimp only; rw [h4, List.length_replicate], h5, h6, h9, h7, h8⟩, ⟨?_, ?_, ?_⟩, fun h => ?_, fun h => ?_, fun _ => ?_,
    fun h => ?_, fun h => ?_⟩
  · show Ptr.Usable p.dev
    rw [hdev]; exact usable_null
  · intro q hq
    have hq : q ∈ outs := hq
    rw [h3] at hq
    rw [List.eq_of_mem_replicate hq]
    exact fun h => by cases h
  · intro q hq
    have hq : q ∈ ins := hq
    rw [h4] at hq
    rw [List.eq_of_mem_replicate hq]
    exact fun h => by cases h
  · dsimp only at h; omega
  · dsimp only at h; omega
  · exact ⟨hcl, hml⟩
  · dsimp only at h; omega
  · dsimp only at h; omega

theorem calls_ready {clock : ℕ → UInt64} {c : PeerState} {calls : List PCall} (g : Ready c)
    (hr : ∀ a ∈ calls, RandomScalar (a.rnd.coeff 0))
    (ho : ∀ x ∈ before G clock c calls, x.1.step = 3 ∨ x.1.step = 4 → .freed ∉ x.1.outs)
    (hi : ∀ x ∈ before G clock c calls, x.1.step = 5 → .freed ∉ x.1.ins)
    (hc : ∀ x ∈ before G clock c calls, x.1.step = 6 → CountsOk x.1.n.toNat x.2.input) :
    ∃ rs c', peerCalls G clock c calls = .ok (rs, c') ∧ Ready c' := by
  induction calls generalizing c with
  | nil => exact ⟨[], c, rfl, g⟩
  | cons a calls ih =>
    have hmem : (c, a) ∈ before G clock c (a :: calls) := by rw [before]; exact List.mem_cons_self
    obtain ⟨r, c1, o, h, g1, -⟩ := peerNext_ready G (clock := clock) (log := a.log) (mlock := a.mlock)
      (scratch := a.scratch) (rnd := a.rnd) (input := a.input) (out := a.out) g (ho _ hmem) (hi _ hmem) (hc _ hmem)
      (fun _ => hr a List.mem_cons_self)
    have hrun : a.run G clock c = .ok (r, c1, o) := h
    have hb : before G clock c (a :: calls) = (c, a) :: before G clock c1 calls := by rw [before, hrun]
    rw [hb] at ho hi hc
    obtain ⟨rs, c', h', g'⟩ := ih g1 (fun b hb => hr b (List.mem_cons_of_mem _ hb))
      (fun x hx => ho x (List.mem_cons_of_mem _ hx)) (fun x hx => hi x (List.mem_cons_of_mem _ hx))
      (fun x hx => hc x (List.mem_cons_of_mem _ hx))
    refine ⟨r :: rs, c', ?_, g'⟩
    rw [peerCalls, hrun, C.ok_bind]
    dsimp only
    rw [h', C.ok_bind]

/-- **C50, as far as it holds.** Whatever a peer receives, in buffers of whatever length, its calls only access their
buffers and use no freed session, as long as no session that is used in the steps 3 to 5 was freed because of a failed
handshake and the announced numbers of complaints are at most `n`. The cleanup afterwards is defined exactly if no session
has been freed. Missing: failed handshakes and larger numbers of complaints (next theorems). -/
theorem C50_history_safe_partial (clock : ℕ → UInt64) (c : PeerState) (h : Started c) (calls : List PCall)
    (hr : ∀ a ∈ calls, RandomScalar (a.rnd.coeff 0))
    (ho : ∀ x ∈ before G clock c calls, x.1.step = 3 ∨ x.1.step = 4 → .freed ∉ x.1.outs)
    (hi : ∀ x ∈ before G clock c calls, x.1.step = 5 → .freed ∉ x.1.ins)
    (hc : ∀ x ∈ before G clock c calls, x.1.step = 6 → CountsOk x.1.n.toNat x.2.input) :
    ∃ rs c', peerCalls G clock c calls = .ok (rs, c') ∧ ((peerFree c').Safe ↔ ¬ c'.Dangling) := by
  obtain ⟨rs, c', h, g⟩ := calls_ready G (started_ready h) hr ho hi hc
  exact ⟨rs, c', h, peerFree_safe_iff g.wf g.init⟩

/-- **C50.** Sessions are only freed in the steps 1 to 3, the handshakes. -/
theorem C50_freed_early (clock : ℕ → UInt64) (c c' : PeerState) (h : Started c) (calls : List PCall) (rs : List Int)
    (hr : ∀ a ∈ calls, RandomScalar (a.rnd.coeff 0))
    (hc : ∀ x ∈ before G clock c calls, x.1.step = 6 → CountsOk x.1.n.toNat x.2.input)
    (hrun : peerCalls G clock c calls = .ok (rs, c')) (hd : c'.Dangling) :
    ∃ x ∈ before G clock c calls, (x.1.step = 1 ∨ x.1.step = 2 ∨ x.1.step = 3) ∧ ¬ x.1.Dangling ∧
      ∃ r y o, x.2.run G clock x.1 = .ok (r, y, o) ∧ y.Dangling := by
  have key : ∀ (calls : List PCall) (c : PeerState) (rs : List Int), Ready c → ¬ c.Dangling →
      (∀ a ∈ calls, RandomScalar (a.rnd.coeff 0)) →
      (∀ x ∈ before G clock c calls, x.1.step = 6 → CountsOk x.1.n.toNat x.2.input) →
      peerCalls G clock c calls = .ok (rs, c') →
      ∃ x ∈ before G clock c calls, (x.1.step = 1 ∨ x.1.step = 2 ∨ x.1.step = 3) ∧ ¬ x.1.Dangling ∧
        ∃ r y o, x.2.run G clock x.1 = .ok (r, y, o) ∧ y.Dangling := by
    intro calls
    induction calls with
    | nil =>
      intro c rs _ hd0 _ _ hrun
      rw [peerCalls] at hrun
      cases hrun
      exact absurd hd hd0
    | cons a calls ih =>
      intro c rs g hd0 hr hc hrun
      have hmem : (c, a) ∈ before G clock c (a :: calls) := by rw [before]; exact List.mem_cons_self
      obtain ⟨r, c1, o, h, g1, h2⟩ := peerNext_ready G (clock := clock) (log := a.log) (mlock := a.mlock)
        (scratch := a.scratch) (rnd := a.rnd) (input := a.input) (out := a.out) g (fun _ h => hd0 (.inl h))
        (fun _ h => hd0 (.inr h)) (hc _ hmem) (fun _ => hr a List.mem_cons_self)
      have hrun1 : a.run G clock c = .ok (r, c1, o) := h
      have hb : before G clock c (a :: calls) = (c, a) :: before G clock c1 calls := by rw [before, hrun1]
      by_cases hd1 : c1.Dangling
      · refine ⟨(c, a), hmem, ?_, hd0, r, c1, o, hrun1, hd1⟩
        by_contra hne
        rw [not_or, not_or] at hne
        exact h2 hne.1 hne.2.1 hne.2.2 hd0 hd1
      · rw [hb] at hc
        rw [peerCalls, hrun1, C.ok_bind] at hrun
        dsimp only at hrun
        rw [C.bind_eq_ok] at hrun
        obtain ⟨⟨rs', c''⟩, h3, h4⟩ := hrun
        cases h4
        obtain ⟨x, hx, hx'⟩ := ih c1 rs' g1 hd1 (fun b hb => hr b (List.mem_cons_of_mem _ hb))
          (fun x hx => hc x (List.mem_cons_of_mem _ hx)) h3
        exact ⟨x, by rw [hb]; exact List.mem_cons_of_mem _ hx, hx'⟩
  refine key calls c rs (started_ready h) ?_ hr hc hrun
  obtain ⟨ctx, now, eps, log, ltSk, msg0, p, sigPks, noisePks, outs, ins, shares, xshares, commitments, complaints, mine,
    lastTs, hp, hcb, h1, h2, h3, h4, -⟩ := h
  unfold peerSetBufs at hcb
  rw [C.bind_eq_ok] at hcb
  obtain ⟨l, hl, hcb⟩ := hcb
  cases hcb
  rintro (hf | hf)
  · have hf : .freed ∈ outs := hf
    rw [h3] at hf
    cases List.eq_of_mem_replicate hf
  · have hf : .freed ∈ ins := hf
    rw [h4] at hf
    cases List.eq_of_mem_replicate hf

/-! ## Complaints -/

/-- **C43 for the peers, as far as it holds.** After the step that receives the complaints the list of a peer has no
duplicates, is within its capacity and has exactly the announced pairs; the list of the accusers of this peer has no
duplicates, is within its capacity and has exactly the peers that accuse it. The pairs are in range if the accused peers
are. Missing: accused peers that are not in range (next theorem). -/
theorem C43_peer_complaints_partial (clock : ℕ → UInt64) (log mlock : Bool) (scratch : B32) (rnd : Rnd) (c c' : PeerState)
    (w : PWF c) (input out o : Bytes) (h6 : c.step = 6) (h0 : c.complaintsLen = 0) (hm0 : c.myLen = 0)
    (h : peerNext G clock log mlock scratch rnd c input out = .ok (0, c', o)) :
    c'.known.Nodup ∧ c'.complaintsLen.toNat ≤ c.n.toNat * c.n.toNat ∧
    (∀ p, p ∈ c'.known ↔ ∃ i < c.n.toNat, ∃ x ∈ accused c.n.toNat input i, p.toNat = (i + 1) * 256 + x.toNat) ∧
    c'.against.Nodup ∧ c'.myLen.toNat ≤ c.n.toNat ∧
    (∀ y, y ∈ c'.against ↔ ∃ i < c.n.toNat, c.index ∈ accused c.n.toNat input i ∧ y.toNat = i + 1) ∧
    ((∀ i < c.n.toNat, ∀ x ∈ accused c.n.toNat input i, 1 ≤ x.toNat ∧ x.toNat ≤ c.n.toNat) →
      ∀ p ∈ c'.known, (1 ≤ p.toNat / 256 ∧ p.toNat / 256 ≤ c.n.toNat) ∧ 1 ≤ p.toNat % 256 ∧ p.toNat % 256 ≤ c.n.toNat) := by
  have hn128 := w.n_le
  have hlen : input.length = peerInputSize c ∧ out.length = peerOutputSize c := by
    by_contra hne
    obtain ⟨s, hs, -⟩ := peerNext_elim G (Peer.wp_wrong G (clock := clock) (log := log) (mlock := mlock)
      (scratch := scratch) (rnd := rnd) (input := input) (s := ⟨c, out⟩) (by dsimp only; omega) (by dsimp only; tauto)) h
    rcases hs with hs | hs
    · have := hs.1
      omega
    · exact hs
  have hw := Peer.wp_step17_records (clock := clock) (log := log) (input := input) (s := ⟨c, out⟩) (U := True)
    (fun _ => trivial) w rfl h0 hm0
    (by simpa [peerInputSize, h6, msg10Size, msg9Size] using hlen.1) (by simpa [peerOutputSize, h6] using hlen.2)
  have hh : Peer.handler G clock log mlock scratch rnd input c.step = Peer.step17 clock log input := by
    rw [h6]; rfl
  rw [← hh] at hw
  obtain ⟨s, hs, rfl, -⟩ := peerNext_elim G hw h
  obtain ⟨-, hx, hrec⟩ := hs.resolve_left (fun h => h.1 rfl)
  have hmem : ∀ a, a ∈ announced c.n.toNat input c.n.toNat ↔ a.1 < c.n.toNat ∧ a.2 ∈ accused c.n.toNat input a.1 := by
    intro a
    unfold announced
    simp only [List.mem_flatMap, List.mem_range, List.mem_map]
    constructor
    · rintro ⟨j, hj, x, hx, rfl⟩
      exact ⟨hj, hx⟩
    · rintro ⟨h1, h2⟩
      exact ⟨a.1, h1, a.2, h2, rfl⟩
  have hpair : ∀ (i : ℕ) (x : UInt8) (p : UInt16), i < c.n.toNat →
      (p = pair (idx i) x ↔ p.toNat = (i + 1) * 256 + x.toNat) := by
    intro i x p hi
    rw [← UInt16.toNat_inj, pair_toNat, idx_toNat (by omega)]
  have hk : ∀ p, p ∈ (pafter 0 s.ctx).known ↔
      ∃ i < c.n.toNat, ∃ x ∈ accused c.n.toNat input i, p.toNat = (i + 1) * 256 + x.toNat := by
    intro p
    show p ∈ s.ctx.known ↔ _
    rw [hrec.mem]
    constructor
    · rintro ⟨a, ha, hp⟩
      obtain ⟨h1, h2⟩ := (hmem a).1 ha
      exact ⟨a.1, h1, a.2, h2, (hpair _ _ _ h1).1 hp⟩
    · rintro ⟨i, hi, x, hx, hp⟩
      exact ⟨(i, x), (hmem _).2 ⟨hi, hx⟩, (hpair _ _ _ hi).2 hp⟩
  have w' := peerNext_pwf G h w
  have hn' : s.ctx.n = c.n := (peerNext_params G h).1
  refine ⟨hrec.nodup, ?_, hk, hrec.mine_nodup, ?_, ?_, ?_⟩
  · have := hrec.cap
    have e : s.ctx.complaints.length = s.ctx.n.toNat * s.ctx.n.toNat := w'.complaints
    rw [hn'] at e
    rw [e] at this
    exact this
  · have := hrec.mine_cap
    have e : s.ctx.mine.length = s.ctx.n.toNat := w'.mine
    rw [hn'] at e
    rw [e] at this
    exact this
  · intro y
    show y ∈ s.ctx.against ↔ _
    rw [hrec.mine_mem, hx]
    constructor
    · rintro ⟨a, ha, h1, rfl⟩
      obtain ⟨h2, h3⟩ := (hmem a).1 ha
      exact ⟨a.1, h2, by rw [h1] at h3; exact h3, idx_toNat (by omega)⟩
    · rintro ⟨i, hi, h1, h2⟩
      refine ⟨(i, c.index), (hmem _).2 ⟨hi, h1⟩, rfl, ?_⟩
      rw [← UInt8.toNat_inj, h2, idx_toNat (by omega)]
  · intro hr p hp
    obtain ⟨i, hi, x, hx, e⟩ := (hk p).1 hp
    have := hr i hi x hx
    have := UInt8.toNat_lt x
    omega

theorem complaints_inv {clock : ℕ → UInt64} {log mlock : Bool} {scratch : B32} {rnd : Rnd} {c c' : PeerState}
    {input out o : Bytes} {r : Int} (w : PWF c) (hq : c.step ≤ 6 → c.complaintsLen = 0 ∧ c.myLen = 0)
    (hk : c.known.Nodup ∧ c.against.Nodup) (hl : c.complaintsLen.toNat ≤ c.complaints.length ∧ c.myLen.toNat ≤ c.mine.length)
    (h : peerNext G clock log mlock scratch rnd c input out = .ok (r, c', o)) :
    PWF c' ∧ (c'.step ≤ 6 → c'.complaintsLen = 0 ∧ c'.myLen = 0) ∧ (c'.known.Nodup ∧ c'.against.Nodup) ∧
    c'.complaintsLen.toNat ≤ c'.complaints.length ∧ c'.myLen.toNat ≤ c'.mine.length := by
  have w' := peerNext_pwf G h w
  have hst := peerNext_step G h
  by_cases h6 : c.step = 6
  case neg =>
    obtain ⟨e1, e2, e3, e4⟩ := peerNext_complaints G h h6
    refine ⟨w', fun h' => ?_, ?_, ?_⟩
    · rw [e2, e4]
      refine hq ?_
      by_cases hr : r = 0
      · rcases hst.2.2 hr with h | h | h <;> omega
      · have := hst.1 hr
        omega
    · unfold PeerState.known PeerState.against
      rw [e1, e2, e3, e4]
      exact hk
    · rw [e1, e2, e3, e4]
      exact hl
  obtain ⟨h0, hm0⟩ := hq (by omega)
  by_cases hlen : input.length = peerInputSize c ∧ out.length = peerOutputSize c
  · have hw := Peer.wp_step17_records (clock := clock) (log := log) (input := input) (s := ⟨c, out⟩) (U := True)
      (fun _ => trivial) w rfl h0 hm0
      (by simpa [peerInputSize, h6, msg10Size, msg9Size] using hlen.1) (by simpa [peerOutputSize, h6] using hlen.2)
    have hh : Peer.handler G clock log mlock scratch rnd input c.step = Peer.step17 clock log input := by
      rw [h6]; rfl
    rw [← hh] at hw
    obtain ⟨s, hs, rfl, -⟩ := peerNext_elim G hw h
    obtain ⟨A, hrec⟩ : ∃ A, Recorded c.n.toNat A s.ctx := by
      rcases hs with ⟨-, -, A, hs⟩ | ⟨-, -, hs⟩
      · exact ⟨A, hs⟩
      · exact ⟨_, hs⟩
    refine ⟨w', fun h' => ?_, ⟨hrec.nodup, hrec.mine_nodup⟩, hrec.cap, hrec.mine_cap⟩
    by_cases hr : r = 0
    · rcases hst.2.2 hr with h | h | h <;> omega
    · have := hst.1 hr
      omega
  · obtain ⟨s, hs, rfl, -⟩ := peerNext_elim G (Peer.wp_wrong G (clock := clock) (log := log) (mlock := mlock)
      (scratch := scratch) (rnd := rnd) (input := input) (s := ⟨c, out⟩) (by dsimp only; omega) (by dsimp only; tauto)) h
    obtain ⟨hr, rfl⟩ : (r = 1 ∨ r = 2) ∧ s = ⟨c, out⟩ := hs.elim id False.elim
    refine ⟨w', fun _ => ⟨h0, hm0⟩, hk, hl⟩

/-- **C43.** At every time in the life of a peer, whatever it received and also after failed steps, its lists of complaints
have no duplicates and are within their capacities. -/
theorem C43_peer_lists (clock : ℕ → UInt64) (c c' : PeerState) (h : Started c) (calls : List PCall) (rs : List Int)
    (hrun : peerCalls G clock c calls = .ok (rs, c')) :
    c'.known.Nodup ∧ c'.against.Nodup ∧ c'.complaintsLen.toNat ≤ c'.n.toNat * c'.n.toNat ∧ c'.myLen.toNat ≤ c'.n.toNat := by
  have g := started_ready h
  obtain ⟨q1, q2⟩ := g.quiet (by
    obtain ⟨ctx, now, eps, log, ltSk, msg0, p, sigPks, noisePks, outs, ins, shares, xshares, commitments, complaints, mine,
      lastTs, hp, hcb, -⟩ := h
    unfold peerSetBufs at hcb
    rw [C.bind_eq_ok] at hcb
    obtain ⟨l, hl, hcb⟩ := hcb
    cases hcb
    have := (startPeer_ok hp).2.2.2.2.2.1
    dsimp only
    omega)
  have key : ∀ (calls : List PCall) (c : PeerState) (rs : List Int), PWF c →
      (c.step ≤ 6 → c.complaintsLen = 0 ∧ c.myLen = 0) → (c.known.Nodup ∧ c.against.Nodup) →
      (c.complaintsLen.toNat ≤ c.complaints.length ∧ c.myLen.toNat ≤ c.mine.length) →
      peerCalls G clock c calls = .ok (rs, c') → PWF c' ∧ (c'.known.Nodup ∧ c'.against.Nodup) ∧
        c'.complaintsLen.toNat ≤ c'.complaints.length ∧ c'.myLen.toNat ≤ c'.mine.length := by
    intro calls
    induction calls with
    | nil =>
      intro c rs w _ hk hl hrun
      rw [peerCalls] at hrun
      cases hrun
      exact ⟨w, hk, hl⟩
    | cons a calls ih =>
      intro c rs w hq hk hl hrun
      rw [peerCalls, C.bind_eq_ok] at hrun
      obtain ⟨⟨r, c1, o⟩, h1, hrun⟩ := hrun
      dsimp only at hrun
      rw [C.bind_eq_ok] at hrun
      obtain ⟨⟨rs', c''⟩, h3, h4⟩ := hrun
      cases h4
      obtain ⟨w1, a1, a2, a3⟩ := complaints_inv G w hq hk hl h1
      exact ih c1 rs' w1 a1 a2 a3 h3
  obtain ⟨w', k1, k2⟩ := key calls c rs g.wf g.quiet
    (by unfold PeerState.known PeerState.against; rw [q1, q2]; simp) (by rw [q1, q2]; simp) hrun
  rw [w'.complaints, w'.mine] at k2
  exact ⟨k1.1, k1.2, k2.1, k2.2⟩

end

/-! ## Violations -/

section
attribute [local instance] Ristretto.toy Toy.hashes Toy.signing Toy.noise Toy.mac

def freshMsg0 : Bytes := Toy.msg 177 0 0 0xff (List.replicate 64 0 ++ [3, 2])

/-- A peer after the start. -/
def freshPeer : C (Int × PeerState) := startPeer (Toy.peer 0) 5 5 true (toB64 []) freshMsg0

/-- With its buffers. -/
def fresh : C PeerState := freshPeer >>= fun p => peerSetBufs p.2 (List.replicate 3 zero32) (List.replicate 3 zero32)
  (List.replicate 3 .null) (List.replicate 3 .null) (List.replicate 3 ⟨0, zero32⟩) (List.replicate 3 ⟨0, zero32⟩)
  (List.replicate 6 zero32) (List.replicate 9 0) [0, 0, 0] [7, 7, 7]

theorem fresh_started : ∃ c, fresh = .ok c ∧ Started c := by
  obtain ⟨⟨r, p⟩, h, hp⟩ := Toy.isOk_elim (p := fun x => x.1 == 0 && x.2.n == 3 && x.2.t == 2) (x := freshPeer)
    (by decide +kernel)
  simp only [Bool.and_eq_true, beq_iff_eq] at hp
  obtain ⟨⟨rfl, hn⟩, ht⟩ := hp
  obtain ⟨c, hc, -⟩ := Toy.isOk_elim (p := fun _ => true) (x := fresh) (by decide +kernel)
  have hc' := hc
  unfold fresh at hc'
  rw [h, C.ok_bind] at hc'
  refine ⟨c, hc, _, _, _, _, _, _, p, _, _, _, _, _, _, _, _, _, _, h, hc', ?_⟩
  · rw [hn, ht]
    exact ⟨rfl, rfl, rfl, rfl, rfl, rfl, rfl, rfl, rfl, rfl⟩

def toyKeys (i : UInt8) : Bytes := Toy.msg 175 2 i 0xff (List.replicate 32 0 ++ i :: List.replicate 31 0)

/-- A handshake message that cannot be decrypted. -/
def badHs (no i : UInt8) : Bytes := Toy.msg 159 no i 1 (List.replicate 48 9)

def toyCom (i : UInt8) : Bytes := Toy.msg 175 6 i 0xff (List.replicate 64 0)

def call0 : PCall := Toy.pcall (Toy.msg 111 1 0 1 []) 239
def call1 : PCall := Toy.pcall (Toy.msg 636 3 0 0xff (toyKeys 1 ++ toyKeys 2 ++ toyKeys 3)) 477
def call2 : PCall := Toy.pcall (badHs 4 1 ++ badHs 4 2 ++ badHs 4 3) 477
def call3 : PCall := Toy.pcall (badHs 5 1 ++ badHs 5 2 ++ badHs 5 3) 175
def call4 : PCall := Toy.pcall (Toy.msg 636 7 0 0xff (toyCom 1 ++ toyCom 2 ++ toyCom 3)) 768

def isUb {α : Type} (x : C α) (u : UB) : Bool := match x with | .ok _ => false | .ub v => v == u

theorem isUb_elim {α : Type} {x : C α} {u : UB} (h : isUb x u = true) : x = .ub u := by
  unfold isUb at h
  split at h
  · cases h
  · rw [beq_iff_eq] at h
    rw [h]

/-- **C50**, violated: a handshake message that cannot be decrypted makes the peer free the session, which is not an error
of the step, and the cleanup frees it again. -/
theorem C50_double_free_violated : ∃ c rs c', Started c ∧
    peerCalls (ZMod L) (fun _ => 5) c [call0, call1, call2] = .ok (rs, c') ∧ rs = [0, 0, 0] ∧
    peerFree c' = .ub .doubleFree := by
  obtain ⟨c, hc, hst⟩ := fresh_started
  obtain ⟨⟨rs, c'⟩, h, hp⟩ := Toy.isOk_elim (p := fun x => x.1 == [0, 0, 0] && isUb (peerFree x.2) .doubleFree)
    (x := fresh >>= fun c => peerCalls (ZMod L) (fun _ => 5) c [call0, call1, call2]) (by decide +kernel)
  rw [hc, C.ok_bind] at h
  simp only [Bool.and_eq_true, beq_iff_eq] at hp
  exact ⟨c, rs, c', hst, h, hp.1, isUb_elim hp.2⟩

/-- **C50**, violated: an answer that cannot be decrypted makes the peer free the session, which is not an error of the
step, and the next step uses it. -/
theorem C50_use_after_free_violated : ∃ c, Started c ∧
    peerCalls (ZMod L) (fun _ => 5) c [call0, call1, call2, call3, call4] = .ub .freed := by
  obtain ⟨c, hc, hst⟩ := fresh_started
  have h := isUb_elim (x := fresh >>= fun c => peerCalls (ZMod L) (fun _ => 5) c [call0, call1, call2, call3, call4])
    (u := .freed) (by decide +kernel)
  rw [hc, C.ok_bind] at h
  exact ⟨c, hst, h⟩

/-- A peer before the step of the complaints, with finished sessions. -/
def peer6 : PeerState :=
  let sn : Noise.Session := ⟨.initiator, 1, .transport ⟨toB64 [], zero32, 0, zero32, 0⟩⟩
  { Toy.peer 6 with
    dev := .live (Noise.deviceCreate Peer.prologue zero32)
    outs := [.live sn, .live sn, .live sn]
    ins := [.live sn, .live sn, .live sn] }

theorem peer6_ready : Ready peer6 := by
  refine ⟨⟨by decide, by decide, by decide, rfl, rfl, rfl, rfl, rfl, rfl, rfl, rfl, rfl, rfl⟩, ⟨usable_live, ?_, ?_⟩,
    fun _ _ => by decide, fun _ _ => ⟨_, rfl⟩, fun _ => ⟨rfl, rfl⟩, fun _ _ q hq => ?_, fun h => ?_⟩
  · intro q hq
    simp only [peer6, List.mem_cons, List.not_mem_nil, or_false, or_self] at hq
    rw [hq]; simp
  · intro q hq
    simp only [peer6, List.mem_cons, List.not_mem_nil, or_false, or_self] at hq
    rw [hq]; simp
  · simp only [peer6, List.mem_cons, List.not_mem_nil, or_false, or_self] at hq
    exact ⟨_, hq, _, rfl⟩
  · exact absurd h (by decide)

/-- A message with complaints: the number and three accused peers. -/
def complain (i k x y z : UInt8) : Bytes := Toy.msg 115 9 i 0xff [k, x, y, z]

def complaintsMsg (a b c : Bytes) : Bytes := Toy.msg 456 10 0 0xff (a ++ b ++ c)

/-- **C50**, violated: the number of complaints in the last message is not compared with the length of the message, the peer
reads behind its input. -/
theorem C50_count_read_violated :
    peerNext (ZMod L) (fun _ => 5) true true zero32 Toy.rnd peer6
      (complaintsMsg (complain 1 0 0 0 0) (complain 2 0 0 0 0) (complain 3 255 1 1 1)) [] = .ub .oob :=
  isUb_elim (by decide +kernel)

/-- **C50**, violated: with a number that is too large the peer also writes behind its list of complaints; here the input is
long enough for the number. -/
theorem C50_count_write_violated :
    peerNext (ZMod L) (fun _ => 5) true true zero32 Toy.rnd peer6
      (complaintsMsg (complain 1 40 1 2 3) (Toy.msg 115 9 2 0xff [9, 8, 7, 6]) (complain 3 0 1 1 1)) [] = .ub .oob ∧
    111 + 112 + 40 ≤ (complaintsMsg (complain 1 40 1 2 3) (Toy.msg 115 9 2 0xff [9, 8, 7, 6]) (complain 3 0 1 1 1)).length :=
  ⟨isUb_elim (by decide +kernel), by decide +kernel⟩

/-- **C43**, violated: a peer is accused that does not exist, and the complaint is recorded. -/
theorem C43_peer_range_violated : ∃ c' o,
    peerNext (ZMod L) (fun _ => 5) true true zero32 Toy.rnd peer6
      (complaintsMsg (complain 1 1 200 0 0) (complain 2 0 0 0 0) (complain 3 0 0 0 0)) [] = .ok (0, c', o) ∧
    c'.n = 3 ∧ 456 ∈ c'.known := by
  obtain ⟨⟨r, c', o⟩, h, hp⟩ := Toy.isOk_elim
    (p := fun x => x.1 == 0 && x.2.1.n == 3 && x.2.1.known == [456]) (x := peerNext (ZMod L) (fun _ => 5) true true zero32 Toy.rnd peer6
      (complaintsMsg (complain 1 1 200 0 0) (complain 2 0 0 0 0) (complain 3 0 0 0 0)) []) (by decide +kernel)
  simp only [Bool.and_eq_true, beq_iff_eq] at hp
  obtain ⟨⟨rfl, hn⟩, hk⟩ := hp
  exact ⟨c', o, h, hn, by rw [hk]; simp⟩

/-! ## Examples -/

/-- Complaints with a duplicate and with an accusation of this peer. -/
def someComplaints : Bytes := complaintsMsg (complain 1 2 3 3 0) (complain 2 2 1 3 0) (complain 3 0 0 0 0)

theorem someComplaints_run : ∃ c' o,
    peerNext (ZMod L) (fun _ => 5) true true zero32 Toy.rnd peer6 someComplaints [] = .ok (0, c', o) ∧
    c'.known = [259, 513, 515] ∧ c'.against = [2] := by
  obtain ⟨⟨r, c', o⟩, h, hp⟩ := Toy.isOk_elim
    (p := fun x => x.1 == 0 && x.2.1.known == [259, 513, 515] && x.2.1.against == [2])
    (x := peerNext (ZMod L) (fun _ => 5) true true zero32 Toy.rnd peer6 someComplaints []) (by decide +kernel)
  simp only [Bool.and_eq_true, beq_iff_eq] at hp
  obtain ⟨⟨rfl, hn⟩, hk⟩ := hp
  exact ⟨c', o, h, hn, hk⟩

/-- The hypotheses of `C43_peer_complaints_partial` can be met. -/
example : ∃ c' : PeerState, c'.known = [259, 513, 515] ∧ c'.known.Nodup ∧ c'.against = [2] ∧ c'.against.Nodup := by
  obtain ⟨c', o, h, hk, ha⟩ := someComplaints_run
  obtain ⟨h1, -, -, h2, -⟩ := C43_peer_complaints_partial (ZMod L) _ _ _ _ _ _ _ peer6_ready.wf _ _ _ rfl rfl rfl h
  exact ⟨c', hk, h1, ha, h2⟩

def notFreed (p : Ptr Noise.Session) : Bool := match p with | .freed => false | _ => true

theorem toy_random (calls : List PCall) (h : ∀ a ∈ calls, a.rnd = Toy.rnd) : ∀ a ∈ calls, RandomScalar (a.rnd.coeff 0) := by
  intro a ha
  rw [h a ha]
  have e : Toy.rnd.coeff 0 = B32.ofZ ((1 : ℕ) : ZMod L) := by decide +kernel
  rw [e]
  exact Toy.randomScalar 1 (by decide) (by norm_num)

/-- The hypotheses of the theorems about histories can be met, also with failed handshakes: here the sessions of the other
direction are still there in step 3. -/
example : ∃ c rs c', Started c ∧ peerCalls (ZMod L) (fun _ => 5) c [call0, call1, call2, call3] = .ok (rs, c') ∧
    c'.Dangling ∧ ¬ (peerFree c').Safe ∧ c'.known.Nodup ∧
    ∃ x ∈ before (ZMod L) (fun _ => 5) c [call0, call1, call2, call3], x.1.step = 1 ∨ x.1.step = 2 ∨ x.1.step = 3 := by
  obtain ⟨c, hc, hst⟩ := fresh_started
  obtain ⟨l, hl, hp⟩ := Toy.isOk_elim
    (p := fun l => l.all fun x => decide (x.1.step < 4) && x.1.outs.all notFreed)
    (x := fresh >>= fun c => .ok (before (ZMod L) (fun _ => 5) c [call0, call1, call2, call3])) (by decide +kernel)
  obtain ⟨q, hq, hq'⟩ := Toy.isOk_elim (p := fun q => !(q.2.ins.all notFreed))
    (x := fresh >>= fun c => peerCalls (ZMod L) (fun _ => 5) c [call0, call1, call2, call3]) (by decide +kernel)
  rw [hc, C.ok_bind] at hl hq
  cases hl
  simp only [List.all_eq_true, Bool.and_eq_true, decide_eq_true_eq] at hp
  have hr := toy_random [call0, call1, call2, call3] (by
    intro a ha
    simp only [List.mem_cons, List.not_mem_nil, or_false] at ha
    rcases ha with rfl | rfl | rfl | rfl <;> rfl)
  have h6 : ∀ x ∈ before (ZMod L) (fun _ => 5) c [call0, call1, call2, call3], x.1.step = 6 →
      CountsOk x.1.n.toNat x.2.input := fun x hx h => by have := (hp x hx).1; omega
  obtain ⟨rs, c', h, hs⟩ := C50_history_safe_partial (ZMod L) _ c hst _ hr
    (fun x hx _ hf => by cases (hp x hx).2 _ hf) (fun x hx h => by have := (hp x hx).1; omega) h6
  have hd : c'.Dangling := by
    rw [hq] at h
    cases h
    simp only [Bool.not_eq_true', List.all_eq_false] at hq'
    obtain ⟨p, hp, hf⟩ := hq'
    cases p with
    | freed => exact .inr hp
    | _ => exact absurd rfl hf
  obtain ⟨x, hx, hx', -⟩ := C50_freed_early (ZMod L) _ c c' hst _ rs hr h6 h hd
  exact ⟨c, rs, c', hst, h, hd, fun h => hs.1 h hd, (C43_peer_lists (ZMod L) _ c c' hst _ rs h).1, x, hx, hx'⟩

end

end Verif.Props
