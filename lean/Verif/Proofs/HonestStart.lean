import Verif.Proofs.HonestRun
import Verif.Props.PeerRun

/-!
# The start and the whole run in which all parties follow the protocol
-/

set_option linter.unusedSectionVars false

namespace Verif.TpDkg.Honest

open H Wire Spec.Wire

variable [Signing] [Hashes] [NoiseCrypto] [Mac] (G : Type) [Ristretto G]

variable {S : Setup} {lo : ℕ}

theorem startTp_fields {ctx c : TP} {now eps : UInt64} {n t : UInt8} {name msg0 m : Bytes} {sid seed : B32}
    (h : startTp ctx now eps n t name sid seed msg0 = .ok (0, c, m)) :
    c.eps = eps ∧ c.sigSk = Signing.skOf seed ∧ c.ticks = ctx.ticks + 1 := by
  unfold startTp at h
  split at h
  · cases h
  split at h
  · cases h
  split at h
  · cases h
  split at h
  · cases h
  simp only [C.bind_eq_ok] at h
  obtain ⟨_, _, _, _, _, _, _, _, _, _, h⟩ := h
  cases h
  exact ⟨rfl, rfl, rfl⟩

/-- The start of the trusted party. -/
theorem startTp_honest (hS : S.Honest lo) : ∃ tp m, startTp S.tp0 (S.tpEnv.clock S.tp0.ticks) S.eps S.n S.t S.name S.sid
      S.seed S.msg0 = .ok (0, tp, m) ∧ ∃ tp', tpSetBufs tp (S.tpEnv.clock tp.ticks) S.tp0.commitments S.tp0.complaints
        S.tp0.encShares S.tp0.cheaters S.tp0.cheaterMax S.tp0.sigPks S.ltPks S.tp0.lastTs = .ok tp' ∧
      tp'.transcript = tp.transcript ∧ tp'.ticks = S.tp0.ticks + 2 ∧ tp'.step = 0 ∧
      ∀ b : ℕ → UInt64, (∀ j < S.n.toNat, S.tpEnv.clock (S.tp0.ticks + 1) ≤ b j) → TpAt S lo 0 b tp' := by
  obtain ⟨hn3, hn128⟩ := n_lt hS
  obtain ⟨r, c, m, h, h0, -⟩ := Props.C51_tp_accepts_partial S.tp0 (S.tpEnv.clock S.tp0.ticks) S.eps S.n S.t S.name S.msg0
    S.sid S.seed
  obtain rfl : r = 0 := h0.2 ⟨by omega, hn128, hS.t_lt, hS.name_pos, hS.name_le, hS.msg0⟩
  obtain ⟨f1, f2, f3⟩ := startTp_fields h
  obtain ⟨dst, hm, hsid, hpk, htr⟩ := Props.startTp_ok h
  obtain ⟨hn, ht, hst, hcl, hch, -⟩ := start_ok h
  refine ⟨c, m, h, ?_⟩
  have w1 : ∃ cheaters, wr S.tp0.cheaters 0 (List.replicate S.tp0.cheaterMax ⟨0, 0, 0, 0, 0⟩) = .ok cheaters :=
    ⟨_, wr_ok (by rw [List.length_replicate]; have := hS.tp_cheaters; omega)⟩
  obtain ⟨cheaters, w1⟩ := w1
  have w2 : wr S.tp0.lastTs 0 (List.replicate c.n.toNat (S.tpEnv.clock c.ticks)) =
      .ok (List.replicate S.n.toNat (S.tpEnv.clock c.ticks)) := by
    rw [wr_ok (by rw [List.length_replicate, hn, hS.tp_lastTs]; omega), hn]
    congr 1
    simp [hS.tp_lastTs]
  unfold tpSetBufs
  rw [w1, C.ok_bind, w2, C.ok_bind]
  refine ⟨_, rfl, rfl, ?_, hst, fun b hb => ?_⟩
  · show c.ticks + 1 = _
    rw [f3]
  · exact {
      n := hn
      t := ht
      sid := hsid
      eps := f1
      sk := f2
      lastTs := by simp
      sigPks := hS.tp_sigPks
      ltPks := rfl
      commitments := hS.tp_commitments
      encShares := hS.tp_encShares
      complaintsLen := hcl
      cheaterLen := hch
      fresh := by
        intro j hj l hl
        obtain ⟨-, rfl⟩ := by simpa [List.getElem?_replicate] using hl
        rw [f3]
        exact ⟨.inr (hS.tpClock.lo_le _), hb j hj⟩
      keys := fun j hj => absurd hj (by omega) }

/-- Nothing is known yet. -/
def Know.none : Know := ⟨false, 0, .none, fun _ => .none, fun _ => .none, fun _ => .none, fun _ => .none, fun _ => .none⟩

/-- The start of peer `i`. -/
theorem startPeer_honest (hS : S.Honest lo) {i : ℕ} (hi : i < S.n.toNat) {tp : TP} {m : Bytes} {btp : UInt64}
    (h : startTp S.tp0 (S.tpEnv.clock S.tp0.ticks) S.eps S.n S.t S.name S.sid S.seed S.msg0 = .ok (0, tp, m))
    (hbtp : S.tpEnv.clock S.tp0.ticks ≤ btp) :
    ∃ c c', startPeer (S.peer0 i) ((S.env i).clock (S.peer0 i).ticks) S.eps (S.env i).log (Signing.skOf (S.lt i)) m =
        .ok (0, c) ∧
      peerSetBufs c (S.peer0 i).sigPks (S.peer0 i).noisePks (S.peer0 i).outs (S.peer0 i).ins (S.peer0 i).shares
        (S.peer0 i).xshares (S.peer0 i).commitments (S.peer0 i).complaints (S.peer0 i).mine (S.peer0 i).lastTs = .ok c' ∧
      c'.step = 0 ∧ c'.transcript = tp.transcript ∧ c'.ltSk = Signing.skOf (S.lt i) ∧
      ∀ b, PAt S lo i btp b Know.none c' := by
  obtain ⟨dst, hm, hsid, hpk, htr⟩ := Props.startTp_ok h
  obtain ⟨hn, ht, -⟩ := start_ok h
  have k1 := (hS.clock i hi).lo_le (S.peer0 i).ticks
  have k2 := (hS.clock i hi).le_hi (S.peer0 i).ticks
  have k3 := hS.tpClock.lo_le S.tp0.ticks
  have k4 := hS.tpClock.le_hi S.tp0.ticks
  have k5 := hS.window
  have k6 := hS.no_wrap
  obtain ⟨c, hc, p1, p2, p3, p4, p5, p6, p7⟩ := Props.C51_same_parameters_partial S.tp0 tp (S.peer0 i)
    (S.tpEnv.clock S.tp0.ticks) ((S.env i).clock (S.peer0 i).ticks) S.eps S.eps S.n S.t S.name S.msg0 m S.sid S.seed
    (S.env i).log (Signing.skOf (S.lt i)) h hS.t_ge (by unfold InWindow; rw [if_pos rfl]; omega)
    (by unfold NoWrap; rw [if_pos rfl]; omega)
  obtain ⟨-, -, -, -, -, -, q1, q2, q3, q4, -⟩ := Props.startPeer_ok hc
  have w2 : wr (S.peer0 i).lastTs 0 (List.replicate c.n.toNat 0) = .ok (List.replicate S.n.toNat 0) := by
    rw [wr_ok (by rw [List.length_replicate, p1, hn, hS.lastTs i hi]; omega), p1, hn]
    congr 1
    simp [hS.lastTs i hi]
  refine ⟨c, { c with
    sigPks := (S.peer0 i).sigPks
    noisePks := (S.peer0 i).noisePks
    outs := (S.peer0 i).outs
    ins := (S.peer0 i).ins
    shares := (S.peer0 i).shares
    xshares := (S.peer0 i).xshares
    commitments := (S.peer0 i).commitments
    complaints := (S.peer0 i).complaints
    mine := (S.peer0 i).mine
    lastTs := List.replicate S.n.toNat 0 }, hc, ?_, p7, p5, q2, fun b => ?_⟩
  · unfold peerSetBufs
    rw [w2, C.ok_bind]
  · exact {
      n := p1.trans hn
      t := p2.trans ht
      sid := p3.trans hsid
      eps := q1
      tpPk := p4.trans hpk
      lastTs_len := by simp
      sigPks_len := hS.sigPks i hi
      noisePks_len := hS.noisePks i hi
      outs_len := hS.outs i hi
      ins_len := hS.ins i hi
      shares_len := hS.shares i hi
      xshares_len := hS.xshares i hi
      comm_len := hS.commitments i hi
      complaintsLen := q3
      myLen := q4
      tpFresh := by
        show Fresh lo c.tpLastTs btp
        rw [p6]
        exact ⟨.inr k3, hbtp⟩
      fresh := by
        intro j hj l hl
        obtain ⟨-, rfl⟩ := by simpa [List.getElem?_replicate] using hl
        exact ⟨.inl rfl, by rw [UInt64.le_iff_toNat_le]; exact Nat.zero_le _⟩
      me := fun h => by cases h
      keys := fun j hj => absurd hj (Nat.not_lt_zero j)
      dev := fun p h => by cases h
      outs := fun _ _ _ h => by cases h
      ins := fun _ _ _ h => by cases h
      shares := fun _ _ _ h => by cases h
      xshares := fun _ _ _ h => by cases h
      comm := fun _ _ _ h => by cases h }

theorem startPeers_ok {m : Bytes} {c1 c : ℕ → PeerState} : ∀ (k i : ℕ),
    (∀ j, i ≤ j → j < i + k →
      startPeer (S.peer0 j) ((S.env j).clock (S.peer0 j).ticks) S.eps (S.env j).log (Signing.skOf (S.lt j)) m = .ok (0, c1 j) ∧
      peerSetBufs (c1 j) (S.peer0 j).sigPks (S.peer0 j).noisePks (S.peer0 j).outs (S.peer0 j).ins (S.peer0 j).shares
        (S.peer0 j).xshares (S.peer0 j).commitments (S.peer0 j).complaints (S.peer0 j).mine (S.peer0 j).lastTs = .ok (c j)) →
    S.startPeers m k i = .ok (List.replicate k 0, (List.range' i k).map c)
  | 0, _, _ => rfl
  | k + 1, i, h => by
    obtain ⟨h1, h2⟩ := h i (le_refl i) (by omega)
    unfold Setup.startPeers
    dsimp only
    rw [h1, C.ok_bind]
    dsimp only
    rw [h2, C.ok_bind, startPeers_ok k (i + 1) fun j a b => h j (by omega) (by omega), C.ok_bind]
    rfl

theorem start_honest (hS : S.Honest lo) : ∃ tp cs, S.start =
      .ok ⟨tp, (List.range S.n.toNat).map cs, [], 0 :: List.replicate S.n.toNat 0⟩ ∧
    Between S lo 0 (clk S cs) (fun _ _ => True) 0 0 tp cs ∧
    ∀ i < S.n.toNat, (cs i).ltSk = Signing.skOf (S.lt i) := by
  obtain ⟨hn3, hn128⟩ := n_lt hS
  obtain ⟨tp, m, h1, tp', h2, h3, h4, h5, h6⟩ := startTp_honest hS
  have hp := fun i hi => startPeer_honest (btp := S.tpEnv.clock tp'.ticks) hS (i := i) hi h1
    (tp_mono hS (by rw [h4]; omega))
  haveI : Nonempty PeerState := ⟨S.peer0 0⟩
  choose! c1 cs hc using hp
  refine ⟨tp', cs, ?_, ⟨h6 _ fun j hj => hS.later j hj _, fun i hi => ⟨_, (hc i hi).2.2.2.2.2 _, trivial⟩, h5,
    fun i hi => (hc i hi).2.2.1, fun i hi => (hc i hi).2.2.2.1.trans h3.symm⟩, fun i hi => (hc i hi).2.2.2.2.1⟩
  unfold Setup.start
  rw [h1, C.ok_bind]
  dsimp only
  rw [h2, C.ok_bind, startPeers_ok (c1 := c1) (c := cs) S.n.toNat 0 (fun j _ hj => ⟨(hc j (by omega)).1, (hc j (by omega)).2.1⟩),
    C.ok_bind, List.range_eq_range']

theorem rounds_one {s s' : Net} (h : Net.round G S.tpEnv S.env s = .ok s') : Net.rounds G S.tpEnv S.env 1 s = .ok s' := by
  show (C.ok s >>= fun s => s.round G S.tpEnv S.env) = _
  rw [C.ok_bind, h]

theorem rounds_succ {s s' s'' : Net} {k : ℕ} (h : Net.rounds G S.tpEnv S.env k s = .ok s')
    (h' : Net.round G S.tpEnv S.env s' = .ok s'') : Net.rounds G S.tpEnv S.env (k + 1) s = .ok s'' := by
  show (Net.rounds G S.tpEnv S.env k s >>= fun s => s.round G S.tpEnv S.env) = _
  rw [h, C.ok_bind, h']

/-- The whole run. -/
theorem run_honest (hS : S.Honest lo) : ∃ tp cs wire, (S.start >>= fun s => s.run G S.tpEnv S.env) =
      .ok ⟨tp, (List.range S.n.toNat).map cs, wire, List.replicate ((S.n.toNat + 1) * 10 + S.n.toNat) 0⟩ ∧
    tp.step = 10 ∧ tp.cheaterLen = 0 ∧ tp.complaintsLen = 0 ∧
    ∀ i < S.n.toNat, (cs i).step = 11 ∧ (cs i).share = finalShare S i ∧ (cs i).complaintsLen = 0 ∧ (cs i).myLen = 0 := by
  obtain ⟨tp0, cs0, e0, M0, hlt⟩ := start_honest hS
  obtain ⟨tp1, cs1, ts1, e1, M1, T1⟩ := round0 G (res := 0 :: List.replicate S.n.toNat 0) hS M0 (fun _ _ => UInt64.le_refl _) hlt
  obtain ⟨tp2, cs2, ts2, e2, M2, T2⟩ := round1 G (res := 0 :: List.replicate S.n.toNat 0 ++ 0 :: List.replicate S.n.toNat 0) hS M1 T1
  obtain ⟨tp3, cs3, ts3, e3, M3, T3⟩ := round2 G (res := 0 :: List.replicate S.n.toNat 0 ++ 0 :: List.replicate S.n.toNat 0 ++ 0 :: List.replicate S.n.toNat 0) hS M2 T2
  obtain ⟨tp4, cs4, ts4, e4, M4, T4⟩ := round3 G (res := 0 :: List.replicate S.n.toNat 0 ++ 0 :: List.replicate S.n.toNat 0 ++ 0 :: List.replicate S.n.toNat 0 ++ 0 :: List.replicate S.n.toNat 0) hS M3 T3
  obtain ⟨tp5, cs5, ts5, e5, M5, T5⟩ := round4 G (res := 0 :: List.replicate S.n.toNat 0 ++ 0 :: List.replicate S.n.toNat 0 ++ 0 :: List.replicate S.n.toNat 0 ++ 0 :: List.replicate S.n.toNat 0 ++ 0 :: List.replicate S.n.toNat 0) hS M4 T4
  obtain ⟨tp6, cs6, ts6, e6, M6, T6⟩ := round5 G (res := 0 :: List.replicate S.n.toNat 0 ++ 0 :: List.replicate S.n.toNat 0 ++ 0 :: List.replicate S.n.toNat 0 ++ 0 :: List.replicate S.n.toNat 0 ++ 0 :: List.replicate S.n.toNat 0 ++ 0 :: List.replicate S.n.toNat 0) hS M5 T5
  obtain ⟨tp7, cs7, e7, M7, T7⟩ := round6 G (res := 0 :: List.replicate S.n.toNat 0 ++ 0 :: List.replicate S.n.toNat 0 ++ 0 :: List.replicate S.n.toNat 0 ++ 0 :: List.replicate S.n.toNat 0 ++ 0 :: List.replicate S.n.toNat 0 ++ 0 :: List.replicate S.n.toNat 0 ++ 0 :: List.replicate S.n.toNat 0) hS M6 T6
  obtain ⟨cs8, ts8, e8, M8, T8⟩ := idle_ok G (res := 0 :: List.replicate S.n.toNat 0 ++ 0 :: List.replicate S.n.toNat 0 ++ 0 :: List.replicate S.n.toNat 0 ++ 0 :: List.replicate S.n.toNat 0 ++ 0 :: List.replicate S.n.toNat 0 ++ 0 :: List.replicate S.n.toNat 0 ++ 0 :: List.replicate S.n.toNat 0 ++ 0 :: List.replicate S.n.toNat 0) hS M7 T7
  obtain ⟨res8, hres8⟩ : ∃ res8 : List Int, res8 = 0 :: List.replicate S.n.toNat 0 ++ 0 :: List.replicate S.n.toNat 0 ++ 0 :: List.replicate S.n.toNat 0 ++ 0 :: List.replicate S.n.toNat 0 ++ 0 :: List.replicate S.n.toNat 0 ++ 0 :: List.replicate S.n.toNat 0 ++ 0 :: List.replicate S.n.toNat 0 ++ 0 :: List.replicate S.n.toNat 0 ++ List.replicate S.n.toNat 0 := ⟨_, rfl⟩
  rw [← hres8] at e8
  obtain ⟨tp9, cs9, ts9, e9, A9, s9, T9, F9⟩ := round7 G (res := res8) hS M8 T8
  obtain ⟨tp10, cs10, e10, A10, s10, F10⟩ := round8 G (res := res8 ++ 0 :: List.replicate S.n.toNat 0) hS A9 s9 T9
    (fun i hi => (F9 i hi).1)
  refine ⟨tp10, cs10, [], ?_, s10, A10.cheaterLen, A10.complaintsLen, ?_⟩
  · rw [e0, C.ok_bind]
    unfold Net.run
    have r7 := rounds_succ G (rounds_succ G (rounds_succ G (rounds_succ G (rounds_succ G (rounds_succ G (rounds_one G e1) e2)
      e3) e4) e5) e6) e7
    rw [r7, C.ok_bind, e8, C.ok_bind, rounds_succ G (rounds_one G e9) e10, hres8]
    congr 2
    simp only [← List.replicate_succ, List.replicate_append_replicate]
    congr 1
    omega
  · intro i hi
    obtain ⟨-, h2, K, btp, b', A, -⟩ := F9 i hi
    rw [F10 i hi]
    exact ⟨rfl, h2, A.complaintsLen, A.myLen⟩

end Verif.TpDkg.Honest
