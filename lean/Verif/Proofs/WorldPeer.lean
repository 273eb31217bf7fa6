import Verif.Proofs.WorldStep
import Verif.Props.Defence

/-!
# Calls of the peer keep the invariant
-/

set_option linter.unusedSectionVars false

namespace Verif.TpDkg

open H Wire Spec.Wire Spec Ristretto Props

variable [Signing] [Hashes] [NoiseCrypto] [Mac] (G : Type) [Ristretto G]
variable {t0 eps : UInt64} {clock : ℕ → UInt64} {c : TP} {p p' : PeerState} {o : Bytes}
  {i j lo hi : ℕ} {seed : B32} {d : Duo} {a : PCall}

theorem idle (hin : a.input = d.inbox) (he : d.inbox = []) (h9 : d.peer.step ≤ 9) (h7 : d.peer.step ≠ 7)
    (h8 : d.peer.step ≠ 8) (w : PWF d.peer) (h : a.run G clock d.peer = .ok (0, p, o)) : False := by
  have hl := (call_lengths G h9 h).1
  have := w.t_lt
  rw [hin, he, List.length_nil] at hl
  revert hl
  unfold peerInputSize
  generalize d.peer.step = k at h9 h7 h8
  interval_cases k <;> simp [msg1Size, msg2Size, hdrSize, msg4Size, msg5Size, msg8Size, msg10Size, msg20Size] <;> omega

theorem Early.peer {ts ps : ℕ} {inbox sent : Bytes} (e : Early eps i ts ps d) (h6 : ps < 6)
    (h : a.run G clock d.peer = .ok (0, p, o)) : Early eps i ts (ps + 1) ⟨d.tp, p, inbox, sent⟩ := by
  have hc := peerNext_complaints G h (by have := e.ps; omega)
  have hs := (peerNext_step G h).2.2 rfl
  have hps := e.ps
  exact ⟨e.base.peer G h, by rw [← e.len]; exact hc.2.1, by rw [← e.mine]; exact hc.2.2.2, e.ts,
    by show p.step = ps + 1; omega⟩

theorem TrB.peer (tr : TrB d) (hin : a.input = d.inbox) (h : a.run G clock d.peer = .ok (0, p, o)) :
    d.tp.transcript = p.transcript := by
  have := peerNext_transcript G h
  rw [this, hin]
  exact tr

theorem outKey_peer (h1 : p.step ≠ 1) (h3 : p.step ≠ 3) (h4 : p.step ≠ 4) (h : a.run G clock p = .ok (0, p', o)) :
    outKey p' j = outKey p j := by
  unfold outKey
  rw [peerNext_outs G h h1 h3 h4]

theorem Defended.peer (df : Defended G i c p) (h1 : p.step ≠ 1) (h3 : p.step ≠ 3) (h4 : p.step ≠ 4)
    (h : a.run G clock p = .ok (0, p', o)) : Defended G i c p' := by
  intro j hj
  obtain ⟨key, k1, k2⟩ := df j hj
  exact ⟨key, by rw [outKey_peer G h1 h3 h4 h]; exact k1, k2⟩

theorem later_six (h6 : p.step = 6) (h : a.run G clock p = .ok (0, p', o)) : p.ticks ≤ p'.ticks := by
  obtain ⟨s, hs, rfl, rfl⟩ := peerNext_elim G (c := p) (out := a.out)
    (by rw [h6]; exact Peer.later_step17 (clock := clock) (log := a.log) (input := a.input) ⟨p, a.out⟩) h
  rcases hs with hs | hs
  · exact hs
  · exact hs.1

theorem six_step (h6 : p.step = 6) (h : a.run G clock p = .ok (0, p', o)) :
    (p'.step = 7 ∧ 0 < p'.complaintsLen) ∨ (p'.step = 8 ∧ p'.complaintsLen = 0) := by
  obtain ⟨s, hs, rfl, rfl⟩ := call_ok G (c := p) (out := a.out)
    (by rw [h6]; exact Peer.len_step17 (s := ⟨p, a.out⟩) h6) h
  rcases hs with hs | hs
  · exact .inl ⟨congrArg (· + 1) hs.1, hs.2⟩
  · exact .inr ⟨congrArg (· + 1) hs.1, hs.2⟩

/-- Messages to all peers, after a call that sends them. -/
theorem batch_many {inbox : Bytes} {msgno : UInt8} (b : Base eps i d.tp d.peer) (h0 : d.peer.step ≠ 0)
    (h : a.run G clock d.peer = .ok (0, p, o)) (f : Fresh t0 clock i d.peer.ticks d.tp)
    (hl : o.length = 159 * d.peer.n.toNat) (hb : Batch clock d.peer p msgno o d.peer.n.toNat) :
    Many t0 clock i msgno 159 ⟨d.tp, p, inbox, o⟩ := by
  obtain ⟨ks, ⟨h1, h2⟩, h3⟩ := hb
  rw [b.n] at h1 h2 h3 hl
  refine ⟨_, ks, f, h1, h2, by rw [hl, Nat.mul_comm], fun j hj => ?_⟩
  obtain ⟨body, h4, h5⟩ := h3 j hj
  exact ⟨body, by omega, by rw [← signedBy_peer G h0 h]; exact h5⟩

/-- Calls of the peer after complaints about it. -/
theorem answers_peer (b : Base eps i d.tp d.peer) (ht : d.tp.step = 7) (hcnt : 0 < cnt d.tp.known i)
    (an : Answers G t0 clock i seed d) (hin : a.input = d.inbox)
    (h : a.run G clock d.peer = .ok (0, p, o)) : Answers G t0 clock i seed ⟨d.tp, p, [], d.sent ++ o⟩ := by
  have hn := b.good.wf.n_le
  have hrange := (b.good.seven ht).2.range
  have hst := (peerNext_step G h).2.2 rfl
  cases an with
  | six hp hs len mine told sg f df =>
    obtain ⟨-, -, hk, hnd, hml, hag, -⟩ := C43_peer_complaints_partial G clock a.log a.mlock a.scratch a.rnd d.peer p b.wf
      a.input a.out o hp len mine h
    rw [b.n, hin] at hk hag
    rw [sg.index] at hag
    have hag' : ∀ y, y ∈ p.against ↔ pair y (idx i) ∈ d.tp.known := by
      intro y
      rw [hag]
      constructor
      · rintro ⟨j, hj, hx, hy⟩
        have : y = idx j := UInt8.toNat_inj.1 (by rw [hy, idx_val hj (by omega)])
        subst this
        exact (told j hj _).1 hx
      · intro hy
        obtain ⟨x, z, hx, hz, e⟩ := hrange _ hy
        obtain ⟨rfl, rfl⟩ := pair_inj e
        have hj : y.toNat - 1 < d.tp.n.toNat := by omega
        have e' : idx (y.toNat - 1) = y := UInt8.toNat_inj.1 (by rw [idx_val hj (by omega)]; omega)
        exact ⟨y.toNat - 1, hj, (told _ hj _).2 (by rw [e']; exact hy), by omega⟩
    have hne : p.known ≠ [] := by
      obtain ⟨q, hq, hqi⟩ := List.countP_pos_iff.1 hcnt
      have hqi := of_decide_eq_true hqi
      obtain ⟨x, z, hx, hz, rfl⟩ := hrange _ hq
      rw [pair_mod] at hqi
      have hz' : z = idx i := UInt8.toNat_inj.1 (by rw [hqi, idx_val b.lt (by omega)])
      subst hz'
      obtain ⟨j, hj, hacc, -⟩ := (hag x).1 ((hag' x).2 hq)
      have : pair (idx j) (idx i) ∈ p.known := by
        rw [hk]
        refine ⟨j, hj, _, hacc, ?_⟩
        rw [pair_toNat, idx_val hj (by omega)]
      intro h
      rw [h] at this
      cases this
    rcases six_step G hp h with ⟨s1, s2⟩ | ⟨s1, s2⟩
    · have ho : o = [] := by
        have h1 := (call_lengths G (by omega) h).2
        have h2 := (peerNext_params G h).2.2.2.2.2
        rw [h1, peerOutputSize, hp] at h2
        exact List.length_eq_zero_iff.1 h2
      refine .seven s1 (by rw [hs, ho]; rfl) s2 ?_ ⟨hnd, hag'⟩ (sg.peer G (by omega) h) (f.mono (later_six G hp h))
        (df.peer G (by omega) (by omega) (by omega) h)
      show p.myLen.toNat ≤ p.n.toNat
      rw [(peerNext_params G h).1]
      exact hml
    · exfalso
      apply hne
      unfold PeerState.known
      rw [s2]
      rfl
  | seven hp hs len mine ag sg f df =>
    have hrev := C64_reveal G clock a d.peer p o b.wf hp len mine h
    have hne : d.peer.against ≠ [] := by
      obtain ⟨q, hq, hqi⟩ := List.countP_pos_iff.1 hcnt
      have hqi := of_decide_eq_true hqi
      obtain ⟨x, z, hx, hz, rfl⟩ := hrange _ hq
      rw [pair_mod] at hqi
      have hz' : z = idx i := UInt8.toNat_inj.1 (by rw [hqi, idx_val b.lt (by omega)])
      subst hz'
      have := (ag.2 x).2 hq
      intro h
      rw [h] at this
      cases this
    rw [if_neg hne] at hrev
    exact .eight (by show 8 ≤ p.step; omega) d.peer d.peer.ticks d.peer.ticks [] ag sg f (Nat.le_refl _) df
      (by rw [hs, hrev, List.append_nil]; rfl)
  | eight hp p' lo k tail ag sg f hk df hs =>
    exact .eight (by show 8 ≤ p.step; omega) p' lo k (tail ++ o) ag sg f hk df (by rw [hs, List.append_assoc])

/-- Calls of the peer keep the invariant. -/
theorem Duo.Inv.peer (v : Duo.Inv G t0 eps clock i d) (hin : a.input = d.inbox) (hx : ∀ k, RandomScalar (a.rnd.coeff k))
    (h : a.run G clock d.peer = .ok (0, p, o)) : Duo.Inv G t0 eps clock i ⟨d.tp, p, [], d.sent ++ o⟩ := by
  have b := v.base
  have w := b.wf
  have hi' := b.lt
  have hn := w.n_le
  have b' := b.peer G h
  have hst := (peerNext_step G h).2.2 rfl
  cases v with
  | a0 e hi hs f tr => exact (idle G hin hi (by rw [e.ps]; decide) (by rw [e.ps]; decide) (by rw [e.ps]; decide) w h).elim
  | b1 e hi hs f tr =>
    have hps := e.ps
    have htr := peerNext_transcript G h
    have e' := e.peer G (inbox := []) (sent := d.sent ++ o) (by omega) h
    obtain ⟨hl1, hl2⟩ := call_lengths G (by omega) h
    have e1 : peerInputSize d.peer = 111 := by unfold peerInputSize; rw [hps]; rfl
    have e2 : peerOutputSize d.peer = 239 := by unfold peerOutputSize; rw [hps]; rfl
    have hsid := (peerNext_params G h).2.2.1
    rw [hps] at htr
    obtain ⟨s, ⟨h1, h2, k, h3, h4, npk, sig, h5⟩, rfl, rfl⟩ := call_ok G (c := d.peer) (out := a.out)
      (by rw [hps]; exact Peer.ok_step23 (s := ⟨d.peer, a.out⟩) (by rw [hl1, e1]) (by show a.out.length = 239; rw [hl2, e2])) h
    refine .a1 _ a.rnd.seed e' rfl ⟨by rw [hsid, b.sid], ?_, h1⟩ d.peer.ticks k npk sig f h3 h4 ?_ (tr.trans htr.symm)
    · show s.ctx.index = idx i
      rw [h2, hin, hi]
    · dsimp only
      rw [hs, List.nil_append]
      exact h5
  | a1 seed e hi => exact (idle G hin hi (by rw [e.ps]; decide) (by rw [e.ps]; decide) (by rw [e.ps]; decide) w h).elim
  | b seed k hk e hs ky f tr =>
    have hps := e.ps
    have htr := tr.peer G hin h
    have e' := e.peer G (inbox := []) (sent := d.sent ++ o) (by omega) h
    have ky' := ky.peer G (inbox := []) (sent := d.sent ++ o) (by omega) h
    obtain ⟨hl1, hl2⟩ := call_lengths G (by omega) h
    rw [hs, List.nil_append] at e' ky' ⊢
    rcases hk with rfl | rfl | rfl
    · have e1 : peerInputSize d.peer = 175 * d.peer.n.toNat + 111 := by unfold peerInputSize; rw [hps]; rfl
      have e2 : peerOutputSize d.peer = 159 * d.peer.n.toNat := by unfold peerOutputSize; rw [hps]; simp [msg4Size, Nat.mul_comm]
      obtain ⟨s, ⟨h1, h2⟩, e3, e4⟩ := call_ok G (c := d.peer) (out := a.out)
        (by rw [hps]; exact Peer.ok_step5 (s := ⟨d.peer, a.out⟩) w (by rw [hl1, e1]) (by show a.out.length = _; rw [hl2, e2])) h
      refine .m _ seed 2 (.inl rfl) e' rfl ky' ?_ htr
      refine batch_many G b (by omega) h f (by rw [e4]; exact h1) ?_
      rw [e4, e3]
      exact h2
    · have e1 : peerInputSize d.peer = 159 * d.peer.n.toNat := by unfold peerInputSize; rw [hps]; rfl
      have e2 : peerOutputSize d.peer = 159 * d.peer.n.toNat := by unfold peerOutputSize; rw [hps]; simp [msg5Size, Nat.mul_comm]
      obtain ⟨s, ⟨h1, h2⟩, e3, e4⟩ := call_ok G (c := d.peer) (out := a.out)
        (by rw [hps]; exact Peer.ok_step7 (s := ⟨d.peer, a.out⟩) w (by rw [hl1, e1]) (by show a.out.length = _; rw [hl2, e2])) h
      refine .m _ seed 3 (.inr rfl) e' rfl ky' ?_ htr
      refine batch_many G b (by omega) h f (by rw [e4]; exact h1) ?_
      rw [e4, e3]
      exact h2
    · obtain ⟨⟨k, h1, h2, h3⟩, h4, h5⟩ := C64_shares G clock a d.peer p o w hps hx h
      rw [b.t] at h4 h5
      rw [b.n] at h5
      refine .a4 _ seed e' rfl ky' (o.drop 111) (by show _ = 32 * d.tp.t.toNat; rw [List.length_drop, h4]; omega) ⟨_, k, f, h1, h2, ?_⟩ h5 htr
      rw [← signedBy_peer G (by omega) h]
      exact h3
  | m seed k hk e hi =>
    have := e.ps
    exact (idle G hin hi (by omega) (by omega) (by omega) w h).elim
  | a4 seed e hi => exact (idle G hin hi (by rw [e.ps]; decide) (by rw [e.ps]; decide) (by rw [e.ps]; decide) w h).elim
  | b5 seed e hs ky f sh hcm tr =>
    have hps := e.ps
    have htr := tr.peer G hin h
    have e' := e.peer G (inbox := []) (sent := d.sent ++ o) (by omega) h
    have ky' := ky.peer G (inbox := []) (sent := d.sent ++ o) (by omega) h
    rw [hs, List.nil_append] at e' ky' ⊢
    obtain ⟨h1, h2, ks, ⟨h3, h4⟩, h5⟩ := C64_deal G clock a d.peer p o w hps h
    rw [b.n] at h2 h3 h4 h5
    refine .a5 _ seed e' rfl ky' ⟨_, ks, f, h3, h4, h2, fun j hj => ?_⟩
      ⟨d.peer, a, o, w, hps, h, ky.signer.index, b.n, b.t, ?_⟩ (fun j hj => ?_) htr
    · obtain ⟨x3, key, share, q1, q2, q3, q4, q5⟩ := h5 j hj
      refine ⟨_, ?_, by rw [← signedBy_peer G (by omega) h]; exact q5⟩
      simp only [List.length_append, q1, q4, Vector.length_toList]
    · dsimp only
      rw [hin]
      exact hcm
    · obtain ⟨share, q1, q2, q3⟩ := sh j hj
      obtain ⟨key, share', q4, q5, q6⟩ := dealt_opens (h5 j hj)
      rw [q1, Option.some.injEq] at q5
      subst q5
      exact ⟨key, share.value, q4, by rw [← q2]; exact q6, q3⟩
  | a5 seed e hi => exact (idle G hin hi (by rw [e.ps]; decide) (by rw [e.ps]; decide) (by rw [e.ps]; decide) w h).elim
  | b6 seed e hs ky f hd df hb tr =>
    have hps := e.ps
    have htr := tr.peer G hin h
    have e' := e.peer G (inbox := []) (sent := d.sent ++ o) (by omega) h
    have ky' := ky.peer G (inbox := []) (sent := d.sent ++ o) (by omega) h
    rw [hs, List.nil_append] at e' ky' ⊢
    obtain ⟨c4, a4, o4, q1, q2, q3, q4, q5, q6, q7⟩ := hd
    have hidx := idx_val hi' (by rw [← b.n]; omega : d.tp.n.toNat ≤ 254)
    obtain ⟨xs, ⟨k, h1, h2, h3⟩, h4, h5⟩ := C65_complaints G clock a4 a c4 d.peer p o4 o q1 q2
      (by rw [q4]; intro h; rw [h] at hidx; simp at hidx) q3 h
    have k4 := peerNext_keys G q3 (by omega)
    have p4 := peerNext_params G q3
    rw [q5, q6, q4] at h5
    rw [q5] at h3
    have hsg : ∀ now body, signedBy c4 9 0xff now body = signedBy p 9 0xff now body := fun now body => by
      rw [← signedBy_peer G (by omega) h]
      unfold signedBy
      rw [k4.1, k4.2.1, p4.2.2.1]
    refine .a6 _ seed e' rfl ky' xs (df.peer G (by omega) (by omega) (by omega) h)
      ⟨_, k, f, h1, h2, h3.trans (hsg _ _)⟩ h4 (fun x hx => ?_) htr
    obtain ⟨r1, r2, r3, key, share, -, ⟨r4, r5⟩, r6⟩ := h5 x hx
    have hj : x.toNat - 1 < d.tp.n.toNat := by omega
    have hbox : ∀ a b, a + b ≤ 145 → slice (storedBody d.tp (x.toNat - 1) (idx i)) a b =
        slice d.inbox ((x.toNat - 1) * 256 + (111 + a)) b := by
      intro a b hab
      unfold storedBody
      have : (idx i).toNat - 1 = i := by omega
      rw [slice_slice hab, this, Nat.add_assoc, ← slice_slice (l := 256) (by omega), ← hb _ hj, slice_slice (by omega)]
    refine ⟨r1, r2, r3, key, share, ?_, ?_, ?_⟩
    · rw [hbox _ _ (by omega), hbox _ _ (by omega), ← hin]
      exact r4
    · rw [hbox _ _ (by omega), ← hin]
      exact r5
    · rw [← q7 _ hj]
      exact r6
  | a6 seed e hi => exact (idle G hin hi (by rw [e.ps]; decide) (by rw [e.ps]; decide) (by rw [e.ps]; decide) w h).elim
  | s7 seed b ht key acc an =>
    exact .s7 _ seed b' ht key acc fun hc => answers_peer G b ht hc (an hc) hin h
  | s8a seed e hs ky f hc tr =>
    have hps := e.ps
    have htr := tr.peer G hin h
    obtain ⟨-, -, hk, -⟩ := C43_peer_complaints_partial G clock a.log a.mlock a.scratch a.rnd d.peer p b.wf
      a.input a.out o hps e.len e.mine h
    have hout : o = [] := by
      have h1 := (call_lengths G (by omega) h).2
      have h2 := (peerNext_params G h).2.2.2.2.2
      rw [h1, peerOutputSize, hps] at h2
      exact List.length_eq_zero_iff.1 h2
    rcases six_step G hps h with ⟨s1, s2⟩ | ⟨s1, s2⟩
    · exfalso
      have hnil : p.known = [] := by
        apply List.eq_nil_iff_forall_not_mem.2
        intro q hq
        obtain ⟨j, hj, x, hx, -⟩ := (hk q).1 hq
        rw [b.n] at hj hx
        rw [hin, hc j hj] at hx
        cases hx
      have hcl := b'.wf.complaints
      have := congrArg List.length hnil
      rw [PeerState.known, List.length_take, List.length_nil, hcl] at this
      have h2 := UInt16.lt_iff_toNat_lt.1 s2
      have h3 : (0 : UInt16).toNat = 0 := rfl
      have h4 : 0 < p.n.toNat := by rw [b'.n]; omega
      have := Nat.mul_pos h4 h4
      omega
    · exact .s8b _ seed b' e.ts s1 (by rw [hs, hout]; rfl) rfl (ky.peer G (by omega) h) (f.mono (later_six G hps h)) htr
  | s8b seed b ht hp hs hi ky f tr =>
    have htr := peerNext_transcript G h
    have sg := signedBy_peer G (by omega) h
    obtain ⟨s, ⟨-, h1, h2⟩, e3, e4⟩ := call_ok G (c := d.peer) (out := a.out)
      (by rw [hp]; exact (Peer.hash_step19 (s := ⟨d.peer, a.out⟩)).mono (fun h => h.elim) (fun _ _ h => h) fun _ _ h => h) h
    refine .s8c _ seed b' ht (by show p.step = 9; omega) rfl (ky.peer G (by omega) h)
      ⟨d.peer.ticks, d.peer.ticks, f, Nat.le_refl _, ?_, ?_⟩
    · rw [e3, h1]
      exact Nat.lt_succ_self _
    · dsimp only
      rw [hs, List.nil_append, e4, h2, Peer.header_append _ _ _ _ _ _ (by simp), ← sg, tr]
  | s8c seed b ht hp hi => exact (idle G hin hi (by rw [hp]) (by rw [hp]; decide) (by rw [hp]; decide) w h).elim
  | s9a seed b ht hp hs ky f =>
    obtain ⟨s, ⟨k, h1, h2, body, h3, h4⟩, e3, e4⟩ := call_ok G (c := d.peer) (out := a.out)
      (by rw [hp]; exact Peer.ok_step21 (s := ⟨d.peer, a.out⟩)) h
    refine .s9b _ seed b' ht (by show 10 ≤ p.step; omega) d.peer ky.signer ky.key d.peer.ticks k body [] h3 f h1 ?_
    rw [hs, List.append_nil, List.nil_append, e4]
    exact h4
  | s9b seed b ht hp p' sg key lo k body tail hb f hk hs =>
    exact .s9b _ seed b' ht (by show 10 ≤ p.step; omega) p' sg key lo k body (tail ++ o) hb f hk (by rw [hs, List.append_assoc])
  | done b ht => exact .done _ b' ht

end Verif.TpDkg
