import Verif.Proofs.Defence
import Verif.Props.PeerSafe
import Verif.Props.Dkg

/-!
# Properties C64 and C65: answers and complaints of a peer (`/repo/src/tp-dkg.c`)
-/

set_option linter.unusedSectionVars false

namespace Verif.Props

open TpDkg Wire Spec.Wire Spec H Ristretto

section
variable [Signing] [Hashes] [NoiseCrypto] [Mac] (G : Type) [Ristretto G]

/-! ## C64 -/

theorem verify_right {scratch : B32} {t self i : UInt8} {cs : List B32} {share : Share} (ht : 1 ≤ t.toNat)
    (hl : cs.length = t.toNat) (hs : self ≠ 0) (hi : i ≠ self) :
    Dkg.verifyCommitment G scratch t self i cs share = .ok 0 ↔ RightFor G self cs share.value := by
  rw [C23_verify_iff G scratch t self i cs share ht hl hs hi]
  rfl

/-- **C64.** The message with the commitments and the shares that the peer keeps for the others belong together: for every
peer there is a share with its index that satisfies Feldman's equation for the commitments. -/
theorem C64_shares (clock : ℕ → UInt64) (a : PCall) (c c' : PeerState) (o : Bytes) (w : PWF c) (h3 : c.step = 3)
    (hx : ∀ k, RandomScalar (a.rnd.coeff k)) (h : a.run G clock c = .ok (0, c', o)) :
    (∃ k, c.ticks ≤ k ∧ k < c'.ticks ∧ o = signedBy c 6 0xff (clock k) (o.drop 111)) ∧ o.length = 111 + 32 * c.t.toNat ∧
    ∀ j < c.n.toNat, ∃ share, c'.shares[j]? = some share ∧ share.index = idx j ∧
      RightFor G (idx j) (sentCommitments c.t.toNat o) share.value := by
  have hn := w.n_le
  have ht := w.t_pos
  have hlt := w.t_lt
  obtain ⟨s, ⟨-, cs, hst, k, hk1, hk2, ho⟩, rfl, rfl⟩ := call_ok G (c := c) (out := a.out)
    (by rw [h3]; exact Peer.ok_step911 G (s := ⟨c, a.out⟩) w) h
  dsimp only at hst ho hk1
  have hml : a.mlock = true := by
    by_contra hm
    rw [Bool.not_eq_true] at hm
    rw [hm] at hst
    rw [C22_start_mlock_fails _ _ _ _ _ _ (by omega)] at hst
    cases hst
  rw [hml] at hst
  obtain ⟨cs', shares', h1, h2, h4, h5⟩ := C22_honest_shares_verify G c.n c.t a.rnd.coeff hx
    (List.replicate c.t.toNat zero32) c.shares (by omega) (by omega) (by simp) w.shares
  rw [hst] at h1
  simp only [C.ok.injEq, Prod.mk.injEq, true_and] at h1
  obtain ⟨rfl, rfl⟩ := h1
  refine ⟨⟨k, hk1, hk2, ?_⟩, ?_, fun j hj => ?_⟩
  · rw [ho, signedBy_drop]
  · obtain ⟨hd, e1, e2⟩ := signedBy_split c 6 0xff (clock k) (Peer.flat cs)
    rw [ho, e2, List.length_append, e1, Peer.flat_length, h2]
  · have hi := idx_val hj (by omega : c.n.toNat ≤ 254)
    have hlt : j < s.ctx.shares.length := by rw [h4]; exact hj
    refine ⟨s.ctx.shares[j], List.getElem?_eq_getElem hlt, ?_⟩
    have := h5 (idx j) 0 zero32 s.ctx.shares[j] (by omega)
      (by rw [hi, Nat.add_sub_cancel]; exact List.getElem?_eq_getElem hlt)
    refine ⟨this.1, ?_⟩
    obtain ⟨hd, e1, e2⟩ := signedBy_split c 6 0xff (clock k) (Peer.flat cs)
    rw [ho, e2, flat_commitments h2 hd e1]
    have h0 : idx j ≠ 0 := fun h => by rw [h] at hi; simp at hi
    exact (verify_right G (by omega) h2 h0 h0.symm).1 this.2

/-- **C64.** In the next step every peer is sent the share kept for it, encrypted with the key of the session with this peer
and with the code of the ciphertext under this key. -/
theorem C64_deal (clock : ℕ → UInt64) (a : PCall) (c c' : PeerState) (o : Bytes) (w : PWF c) (h4 : c.step = 4)
    (h : a.run G clock c = .ok (0, c', o)) :
    c'.shares = c.shares ∧ o.length = c.n.toNat * 256 ∧
    ∃ ks, Readings c c' c.n.toNat ks ∧ ∀ j < c.n.toNat, Dealt c c' o j (clock (ks j)) := by
  have hlen := call_lengths G (by omega) h
  have hi : peerInputSize c = 111 + msg6Size c.t * c.n.toNat := by unfold peerInputSize; rw [h4]; rfl
  have ho : peerOutputSize c = c.n.toNat * 256 := by unfold peerOutputSize; rw [h4]; rfl
  rw [hi, ho] at hlen
  obtain ⟨s, ⟨hb, hl, ks, hk, hd⟩, rfl, rfl⟩ := call_ok G (c := c) (out := a.out)
    (by rw [h4]; exact Peer.ok_step13 (s := ⟨c, a.out⟩) w hlen.1 hlen.2) h
  simp only [Peer.base, Prod.mk.injEq] at hb
  exact ⟨hb.2.2.2.2.2, hl, ks, hk, hd⟩

/-- **C64.** The answer to complaints: nothing if nobody accuses this peer, otherwise the list of its accusers with the keys
of the sessions with them. -/
theorem C64_reveal (clock : ℕ → UInt64) (a : PCall) (c c' : PeerState) (o : Bytes) (w : PWF c) (h7 : c.step = 7)
    (hc : 0 < c.complaintsLen) (hm : c.myLen.toNat ≤ c.n.toNat) (h : a.run G clock c = .ok (0, c', o)) :
    o = if c.against = [] then [] else signedBy c 11 0 (clock c.ticks) (c.against.flatMap (entry c)) := by
  have hlen := call_lengths G (by omega) h
  have hi : peerInputSize c = 0 := by unfold peerInputSize; rw [h7]; rfl
  obtain ⟨s, hs, rfl, rfl⟩ := call_ok G (c := c) (out := a.out)
    (by rw [h7]; exact Peer.ok_step17a (s := ⟨c, a.out⟩) w h7 (by rw [hlen.1, hi]) hlen.2 hc hm) h
  exact hs

/-- **C64.** The calls in which a peer commits to its polynomial, deals the shares, receives shares, receives the complaints
and answers them, when there was a complaint. The answer names exactly the peers whose complaints name this peer, each
once. The key disclosed to answer a complaint opens the share that was sent to the complainer, and the share is right for
the commitments that were sent. If no complaint names this peer, nothing is sent. -/
theorem C64_defence (clock : ℕ → UInt64) (a3 a4 a5 a6 a7 : PCall) (c3 c4 c5 c6 c7 c8 : PeerState) (o3 o4 o5 o6 o7 : Bytes)
    (w : PWF c3) (s3 : c3.step = 3) (hl : c3.complaintsLen = 0) (hm : c3.myLen = 0)
    (hx : ∀ k, RandomScalar (a3.rnd.coeff k)) (h3 : a3.run G clock c3 = .ok (0, c4, o3))
    (h4 : a4.run G clock c4 = .ok (0, c5, o4)) (h5 : a5.run G clock c5 = .ok (0, c6, o5))
    (h6 : a6.run G clock c6 = .ok (0, c7, o6)) (s7 : c7.step = 7) (h7 : a7.run G clock c7 = .ok (0, c8, o7)) :
    ∃ ps : List (ℕ × B32), (ps.map Prod.fst).Nodup ∧
      (∀ i, i ∈ ps.map Prod.fst ↔ i < c3.n.toNat ∧ c3.index ∈ accused c3.n.toNat a6.input i) ∧
      (∀ p ∈ ps, ∃ value, Opens o4 p.1 p.2 ⟨idx p.1, value⟩ ∧
        RightFor G (idx p.1) (sentCommitments c3.t.toNat o3) value) ∧
      o7 = if ps = [] then [] else
        signedBy c3 11 0 (clock c7.ticks) (ps.flatMap fun p => idx p.1 :: p.2.toList) := by
  have e3 := peerNext_params G h3
  have e4 := peerNext_params G h4
  have e5 := peerNext_params G h5
  have e6 := peerNext_params G h6
  have s4 : c4.step = 4 := by have := (peerNext_step G h3).2.2 rfl; omega
  have s5 : c5.step = 5 := by have := (peerNext_step G h4).2.2 rfl; omega
  have s6 : c6.step = 6 := by have := (peerNext_step G h5).2.2 rfl; omega
  have k3 := peerNext_keys G h3 (by omega)
  have k4 := peerNext_keys G h4 (by omega)
  have k5 := peerNext_keys G h5 (by omega)
  have k6 := peerNext_keys G h6 (by omega)
  have w4 := peerNext_pwf G h3 w
  have w5 := peerNext_pwf G h4 w4
  have w6 := peerNext_pwf G h5 w5
  have w7 := peerNext_pwf G h6 w6
  have q3 := peerNext_complaints G h3 (by omega)
  have q4 := peerNext_complaints G h4 (by omega)
  have q5 := peerNext_complaints G h5 (by omega)
  have u5 := peerNext_outs G h5 (by omega) (by omega) (by omega)
  have u6 := peerNext_outs G h6 (by omega) (by omega) (by omega)
  have hn : c6.n = c3.n := by rw [e5.1, e4.1, e3.1]
  have hidx : c6.index = c3.index := by rw [k5.1, k4.1, k3.1]
  have hn128 := w.n_le
  obtain ⟨-, -, -, hnd, hml, hag, -⟩ := C43_peer_complaints_partial G clock a6.log a6.mlock a6.scratch a6.rnd c6 c7 w6 a6.input
    a6.out o6 s6 (by rw [q5.2.1, q4.2.1, q3.2.1, hl]) (by rw [q5.2.2.2, q4.2.2.2, q3.2.2.2, hm]) h6
  rw [hn, hidx] at hag
  have hpos : 0 < c7.complaintsLen := by
    obtain ⟨s, hs, rfl, rfl⟩ := call_ok G (c := c6) (out := a6.out)
      (by rw [s6]; exact Peer.len_step17 (s := ⟨c6, a6.out⟩) s6) h6
    have : (pafter 0 s.ctx).step = s.ctx.step + 1 := rfl
    rcases hs with hs | hs
    · exact hs.2
    · omega
  have hrev := C64_reveal G clock a7 c7 c8 o7 w7 s7 hpos (by rw [e6.1]; exact hml) h7
  obtain ⟨-, -, hsh⟩ := C64_shares G clock a3 c3 c4 o3 w s3 hx h3
  obtain ⟨-, -, ks, -, hdeal⟩ := C64_deal G clock a4 c4 c5 o4 w4 s4 h4
  have hkey : ∀ j < c3.n.toNat, ∃ key value, outKey c7 j = some key ∧ Opens o4 j key ⟨idx j, value⟩ ∧
      RightFor G (idx j) (sentCommitments c3.t.toNat o3) value := by
    intro j hj
    obtain ⟨share, f1, f2, f3⟩ := hsh j hj
    obtain ⟨key, share', g1, g2, g3⟩ := dealt_opens (hdeal j (by rw [e3.1]; exact hj))
    rw [f1, Option.some.injEq] at g2
    subst g2
    refine ⟨key, share.value, ?_, ?_, f3⟩
    · unfold outKey at g1 ⊢
      rw [u6, u5]
      exact g1
    · rw [← f2]; exact g3
  have hrange : ∀ y ∈ c7.against, 1 ≤ y.toNat ∧ y.toNat ≤ c3.n.toNat := by
    intro y hy
    obtain ⟨i, hi, -, e⟩ := (hag y).1 hy
    omega
  refine ⟨c7.against.map fun y => (y.toNat - 1, (outKey c7 (y.toNat - 1)).getD zero32), ?_, ?_, ?_, ?_⟩
  · rw [List.map_map]
    refine List.Nodup.map_on (fun x hx y hy hxy => ?_) hnd
    have := hrange x hx
    have := hrange y hy
    simp only [Function.comp] at hxy
    exact UInt8.toNat_inj.1 (by omega)
  · intro i
    rw [List.map_map, List.mem_map]
    constructor
    · rintro ⟨y, hy, rfl⟩
      obtain ⟨i, hi, h, e⟩ := (hag y).1 hy
      have : y.toNat - 1 = i := by omega
      simp only [Function.comp, this]
      exact ⟨hi, h⟩
    · rintro ⟨hi, h⟩
      have e := idx_val hi (by omega)
      refine ⟨idx i, (hag _).2 ⟨i, hi, h, e⟩, ?_⟩
      simp only [Function.comp]
      omega
  · intro p hp
    rw [List.mem_map] at hp
    obtain ⟨y, hy, rfl⟩ := hp
    have := hrange y hy
    obtain ⟨key, value, f1, f2, f3⟩ := hkey (y.toNat - 1) (by omega)
    dsimp only
    rw [f1]
    exact ⟨value, f2, f3⟩
  · rw [hrev]
    have e : (c7.against.map fun y => (y.toNat - 1, (outKey c7 (y.toNat - 1)).getD zero32)) = [] ↔ c7.against = [] := by simp
    simp only [e]
    split
    · rfl
    · have hb : signedBy c7 11 0 = signedBy c3 11 0 := by
        funext now body
        unfold signedBy
        rw [k6.1, k6.2.1, e6.2.2.1, k5.1, k5.2.1, e5.2.2.1, k4.1, k4.2.1, e4.2.2.1, k3.1, k3.2.1, e3.2.2.1]
      rw [hb, List.flatMap_map]
      congr 1
      refine List.flatMap_congr fun y hy => ?_
      have := hrange y hy
      unfold entry
      dsimp only
      congr 1
      apply UInt8.toNat_inj.1
      rw [idx_val (n := c3.n.toNat) (by omega) (by omega)]
      omega

/-! ## C65 -/

theorem received (clock : ℕ → UInt64) (a4 a5 : PCall) (c4 c5 c6 : PeerState) (o4 o5 : Bytes) (w : PWF c4)
    (s4 : c4.step = 4) (h4 : a4.run G clock c4 = .ok (0, c5, o4)) (h5 : a5.run G clock c5 = .ok (0, c6, o5)) :
    c6.xshares.length = c4.n.toNat ∧
    (∀ j < c4.n.toNat, ∃ key share, c6.xshares[j]? = some share ∧ Opens a5.input j key share) ∧
    ∃ r fails len, Dkg.verifyCommitments G a5.scratch c4.n c4.t c4.index
        ((List.range c4.n.toNat).map (commitmentsIn c4.t.toNat a4.input)) c6.xshares
        (List.replicate c4.n.toNat 0) = .ok (r, fails, len) ∧
      ∃ k, c5.ticks ≤ k ∧ k < c6.ticks ∧ o5 = signedBy c4 9 0xff (clock k) (len :: fails) := by
  have e4 := peerNext_params G h4
  have e5 := peerNext_params G h5
  have s5 : c5.step = 5 := by have := (peerNext_step G h4).2.2 rfl; omega
  have k4 := peerNext_keys G h4 (by omega)
  have w5 := peerNext_pwf G h4 w
  have w6 := peerNext_pwf G h5 w5
  obtain ⟨s, ⟨-, hcom⟩, rfl, rfl⟩ := call_ok G (c := c4) (out := a4.out)
    (by rw [s4]; exact Peer.com_step13 (s := ⟨c4, a4.out⟩) w) h4
  dsimp only at hcom
  have hlen := call_lengths G (by omega) h5
  have hi : peerInputSize (pafter 0 s.ctx) = (pafter 0 s.ctx).n.toNat * 256 := by unfold peerInputSize; rw [s5]; rfl
  have ho : peerOutputSize (pafter 0 s.ctx) = 111 + ((pafter 0 s.ctx).n.toNat + 1) := by
    unfold peerOutputSize; rw [s5]; rfl
  rw [hi, ho] at hlen
  obtain ⟨s', ⟨-, hop, r, fails, len, hv, k, hk1, hk2, hout⟩, rfl, rfl⟩ := call_ok G (c := pafter 0 s.ctx) (out := a5.out)
    (by rw [s5]; exact Peer.ok_step15 G (s := ⟨pafter 0 s.ctx, a5.out⟩) w5 hlen.1 hlen.2) h5
  dsimp only at hop hv hk1 hout
  have hrows : Peer.rows c4.n.toNat c4.t.toNat ((pafter 0 s.ctx).commitments.take (c4.n.toNat * c4.t.toNat)) =
      (List.range c4.n.toNat).map (commitmentsIn c4.t.toNat a4.input) := by
    unfold Peer.rows
    apply List.map_congr_left
    intro j hj
    have hj := List.mem_range.1 hj
    rw [← hcom j hj]
    have hlc := w5.commitments
    rw [e4.1, e4.2.1] at hlc
    rw [List.take_of_length_le (l := (pafter 0 s.ctx).commitments) (by omega)]
    rfl
  rw [e4.1, e4.2.1, k4.1, hrows] at hv
  rw [e4.1] at hop
  have hsg : signedBy (pafter 0 s.ctx) 9 0xff = signedBy c4 9 0xff := by
    funext now body
    unfold signedBy
    rw [k4.1, k4.2.1, e4.2.2.1]
  have hl6 := w6.xshares
  rw [e5.1, e4.1] at hl6
  exact ⟨hl6, hop, r, fails, len, hv, k, hk1, hk2, by rw [hout, hsg]⟩

theorem commitmentsIn_length (t : ℕ) (input : Bytes) (j : ℕ) : (commitmentsIn t input j).length = t := by
  simp [commitmentsIn]

/-- **C65.** The message with complaints that a peer sends after it has received the commitments and the shares: it is
signed, the list is strictly increasing, and every peer in it is one of the other peers. The share received from it was
opened with the key it has committed to, and it is wrong for the commitments received. -/
theorem C65_complaints (clock : ℕ → UInt64) (a4 a5 : PCall) (c4 c5 c6 : PeerState) (o4 o5 : Bytes) (w : PWF c4)
    (s4 : c4.step = 4) (hi : c4.index ≠ 0) (h4 : a4.run G clock c4 = .ok (0, c5, o4))
    (h5 : a5.run G clock c5 = .ok (0, c6, o5)) :
    ∃ xs : List UInt8, (∃ k, c5.ticks ≤ k ∧ k < c6.ticks ∧ o5 = signedBy c4 9 0xff (clock k)
        (UInt8.ofNat xs.length :: (xs ++ List.replicate (c4.n.toNat - xs.length) 0))) ∧
      (xs.map UInt8.toNat).Pairwise (· < ·) ∧
      ∀ x ∈ xs, 1 ≤ x.toNat ∧ x.toNat ≤ c4.n.toNat ∧ x ≠ c4.index ∧ ∃ key share,
        c6.xshares[x.toNat - 1]? = some share ∧ Opens a5.input (x.toNat - 1) key share ∧
        ¬ RightFor G c4.index (commitmentsIn c4.t.toNat a4.input (x.toNat - 1)) share.value := by
  have hn := w.n_le
  have ht := w.t_pos
  obtain ⟨hl6, hop, r, fails, len, hv, k, hk1, hk2, rfl⟩ := received G clock a4 a5 c4 c5 c6 o4 o5 w s4 h4 h5
  unfold Dkg.verifyCommitments at hv
  obtain ⟨xs, f1, f2, f3, f4, f5⟩ := verifyAll_fails G (by omega) (by simp) (by simp) (by simp) (by simp) hv
  simp only [UInt8.toNat_zero, List.take_zero, List.nil_append, Nat.zero_add, List.drop_replicate] at f1 f2 f3
  refine ⟨xs, ⟨k, hk1, hk2, ?_⟩, f4, fun x hx => ?_⟩
  · have e : len = UInt8.ofNat xs.length := by rw [← f2, UInt8.ofNat_toNat]
    have e2 : fails = xs ++ List.replicate (c4.n.toNat - xs.length) 0 := by
      rw [← f2, ← f3, ← f1, List.take_append_drop]
    rw [← e, ← e2]
  · obtain ⟨g1, g2, g3, cs, sh, v, g4, g5, g6, g7, g8⟩ := f5 x hx
    refine ⟨by simpa using g1, g2, g3, ?_⟩
    have g1' : 1 ≤ x.toNat := by simpa using g1
    obtain ⟨key, share, p1, p2⟩ := hop (x.toNat - 1) (by omega)
    rw [g5, Option.some.injEq] at p1
    subst p1
    refine ⟨key, sh, g5, p2, fun hr => g7 ?_⟩
    rw [List.getElem?_map, List.getElem?_range (by omega), Option.map_some, Option.some.injEq] at g4
    rw [g4] at hr
    have := (verify_right G (scratch := a5.scratch) (t := c4.t) (i := x) (by omega)
      (by rw [← g4, commitmentsIn_length]) hi g3).2 hr
    rw [this, C.ok.injEq] at g6
    exact g6.symm

/-- **C65, as far as it holds.** If the commitments of the other peers after the first are encodings of group elements
other than 0, the peers in the list are exactly those whose shares are wrong. Missing: malformed commitments, with which a
peer avoids all complaints (`C65_malformed_violated`). -/
theorem C65_complete_partial (clock : ℕ → UInt64) (a4 a5 : PCall) (c4 c5 c6 : PeerState) (o4 o5 : Bytes) (w : PWF c4)
    (s4 : c4.step = 4) (hi : c4.index ≠ 0) (h4 : a4.run G clock c4 = .ok (0, c5, o4))
    (h5 : a5.run G clock c5 = .ok (0, c6, o5))
    (hgood : ∀ j < c4.n.toNat, idx j ≠ c4.index → ∀ cm ∈ (commitmentsIn c4.t.toNat a4.input j).drop 1,
      ∃ P : G, dec cm = some P ∧ P ≠ 0) :
    ∃ xs : List UInt8, (∃ k, c5.ticks ≤ k ∧ k < c6.ticks ∧ o5 = signedBy c4 9 0xff (clock k)
        (UInt8.ofNat xs.length :: (xs ++ List.replicate (c4.n.toNat - xs.length) 0))) ∧
      ∀ j < c4.n.toNat, ∃ key share, c6.xshares[j]? = some share ∧ Opens a5.input j key share ∧
        (idx j ∈ xs ↔ idx j ≠ c4.index ∧
          ¬ RightFor G c4.index (commitmentsIn c4.t.toNat a4.input j) share.value) := by
  have hn := w.n_le
  have ht := w.t_pos
  obtain ⟨hl6, hop, r, fails, len, hv, k, hk1, hk2, rfl⟩ := received G clock a4 a5 c4 c5 c6 o4 o5 w s4 h4 h5
  set css := (List.range c4.n.toNat).map (commitmentsIn c4.t.toNat a4.input) with hcss
  have hgd : ∀ j < c4.n.toNat, css.getD j [] = commitmentsIn c4.t.toNat a4.input j := by
    intro j hj
    rw [List.getD, hcss, List.getElem?_map, List.getElem?_range hj]
    rfl
  have key := C24_verify_commitments_partial G a5.scratch c4.n c4.t c4.index css c6.xshares (List.replicate c4.n.toNat 0)
    (by omega) (by omega) hi (by simp [hcss]) hl6 (by simp)
    (by
      intro cs hcs
      rw [hcss, List.mem_map] at hcs
      obtain ⟨j, -, rfl⟩ := hcs
      exact commitmentsIn_length _ _ _)
    (by
      intro j hj hne
      rw [hgd j hj]
      refine hgood j hj fun h => hne ?_
      rw [← h, idx_val hj (by omega)])
  rw [hv] at key
  simp only [C.ok.injEq, Prod.mk.injEq] at key
  obtain ⟨-, rfl, rfl⟩ := key
  refine ⟨_, ⟨k, hk1, hk2, by rw [List.drop_replicate]⟩, fun j hj => ?_⟩
  obtain ⟨key, share, p1, p2⟩ := hop j hj
  refine ⟨key, share, p1, p2, ?_⟩
  have hj1 := idx_val hj (by omega : c4.n.toNat ≤ 254)
  have hsd : c6.xshares.getD j ⟨0, zero32⟩ = share := by rw [List.getD, p1]; rfl
  have hne : idx j ≠ c4.index ↔ j + 1 ≠ c4.index.toNat := by rw [Ne, Ne, ← UInt8.toNat_inj, hj1]
  rw [List.mem_map]
  simp only [List.mem_filter, List.mem_range'_1, decide_eq_true_eq]
  have hfeld : idx j ≠ c4.index → (feldmanOk G c4.index (commitmentsIn c4.t.toNat a4.input j) share ↔
      RightFor G c4.index (commitmentsIn c4.t.toNat a4.input j) share.value) := by
    intro h
    constructor
    · rintro ⟨Cs, q1, q2⟩
      refine ⟨Cs, q1, fun P hP => ?_, q2⟩
      obtain ⟨Q, q3, q4⟩ := hgood j hj h (enc P) (by rw [q1, ← List.map_drop]; exact List.mem_map_of_mem hP)
      rw [dec_enc, Option.some.injEq] at q3
      rw [q3]; exact q4
    · rintro ⟨Cs, q1, -, q2⟩
      exact ⟨Cs, q1, q2⟩
  constructor
  · rintro ⟨i, ⟨⟨i1, i2⟩, i3, i4⟩, i5⟩
    have : i = j + 1 := by
      rw [← hj1, ← i5]
      simp only [UInt8.toNat_ofNat']
      omega
    subst this
    rw [Nat.add_sub_cancel, hgd j hj, hsd] at i4
    exact ⟨hne.2 i3, fun h => i4 ((hfeld (hne.2 i3)).2 h)⟩
  · rintro ⟨i1, i2⟩
    refine ⟨j + 1, ⟨⟨by omega, by omega⟩, hne.1 i1, ?_⟩, rfl⟩
    rw [Nat.add_sub_cancel, hgd j hj, hsd]
    exact fun h => i2 ((hfeld i1).1 h)

/-- **C65.** A peer that is complained about can answer with a key under which its share is right only with another key
that has the same code for the ciphertext. -/
theorem C65_no_answer (clock : ℕ → UInt64) (a4 a5 : PCall) (c4 c5 c6 : PeerState) (o4 o5 : Bytes) (w : PWF c4)
    (s4 : c4.step = 4) (hi : c4.index ≠ 0) (h4 : a4.run G clock c4 = .ok (0, c5, o4))
    (h5 : a5.run G clock c5 = .ok (0, c6, o5)) (x : UInt8) (hx : x ∈ namedIn o5) (key' value' : B32)
    (ho : Opens a5.input (x.toNat - 1) key' ⟨c4.index, value'⟩)
    (hr : RightFor G c4.index (commitmentsIn c4.t.toNat a4.input (x.toNat - 1)) value') :
    ∃ key, key ≠ key' ∧
      Mac.auth key (boxIn a5.input (x.toNat - 1)) = Mac.auth key' (boxIn a5.input (x.toNat - 1)) := by
  obtain ⟨xs, ⟨k, -, -, rfl⟩, hs, hall⟩ := C65_complaints G clock a4 a5 c4 c5 c6 o4 o5 w s4 hi h4 h5
  have hlen : xs.length ≤ 128 := by
    have := w.n_le
    have h1 : (xs.map UInt8.toNat).Nodup := hs.imp fun h => Nat.ne_of_lt h
    have h2 : xs.map UInt8.toNat ⊆ List.range' 1 c4.n.toNat := by
      intro y hy
      obtain ⟨x, hx, rfl⟩ := List.mem_map.1 hy
      have := hall x hx
      rw [List.mem_range'_1]
      omega
    have := (h1.subperm h2).length_le
    simp only [List.length_map, List.length_range'] at this
    omega
  have hmem : x ∈ xs := by
    obtain ⟨hd, d1, d2⟩ := signedBy_split c4 9 0xff (clock k)
      (UInt8.ofNat xs.length :: (xs ++ List.replicate (c4.n.toNat - xs.length) 0))
    rw [d2] at hx
    have ha : announcedIn (hd ++ (UInt8.ofNat xs.length :: (xs ++ List.replicate (c4.n.toNat - xs.length) 0))) =
        xs.length := by
      unfold announcedIn
      rw [← d1, List.getD, List.getElem?_append_right (le_refl _), Nat.sub_self]
      simp only [List.getElem?_cons_zero, Option.getD_some, UInt8.toNat_ofNat']
      omega
    unfold namedIn at hx
    rw [ha, show hd ++ (UInt8.ofNat xs.length :: (xs ++ List.replicate (c4.n.toNat - xs.length) 0)) =
      (hd ++ [UInt8.ofNat xs.length]) ++ xs ++ List.replicate (c4.n.toNat - xs.length) 0 by simp,
      slice_mid (by simp [d1]) rfl] at hx
    exact hx
  obtain ⟨-, -, -, key, share, -, hop, hw⟩ := hall x hmem
  refine ⟨key, ?_, ?_⟩
  · rintro rfl
    have e := ho.2.symm.trans hop.2
    rw [Option.some.injEq, List.cons.injEq] at e
    have : value' = share.value := Vector.toList_inj.1 e.2
    exact hw (this ▸ hr)
  · exact Vector.toList_inj.1 (hop.1.trans ho.1.symm)

end

/-! ## Examples -/

namespace DefenceToy

attribute [local instance] Ristretto.toy Toy.hashes Toy.signing Toy.noise Toy.mac

def one : Bytes := 1 :: List.replicate 31 0
def hand1 (i : UInt8) : Bytes := Toy.msg 159 4 i 1 (List.replicate 48 0)
def hand2 (i : UInt8) : Bytes := Toy.msg 159 5 i 1 (List.replicate 48 0)
def com (i : UInt8) : Bytes := Toy.msg 175 6 i 0xff (one ++ one)

/-- A message with the share `v` for peer 1; `code` is the code of the ciphertext. -/
def shr (i v : UInt8) (code : Bytes) : Bytes :=
  Toy.msg 256 8 i 1 (i :: List.replicate 63 0 ++ (1 :: v :: List.replicate 47 0) ++ code)

def run2 : PCall := Toy.pcall (hand1 1 ++ hand1 2 ++ hand1 3) 477
def run3 : PCall := { Toy.pcall (hand2 1 ++ hand2 2 ++ hand2 3) 175 with
  rnd := { Toy.rnd with coeff := fun _ => B32.ofZ ((1 : ℕ) : ZMod L) } }
def run4 : PCall := Toy.pcall (Toy.msg 636 7 0 0xff (com 1 ++ com 2 ++ com 3)) 768
/-- The share of peer 3 is wrong. -/
def run5 : PCall := Toy.pcall (shr 1 2 one ++ shr 2 2 one ++ shr 3 9 one) 115
/-- Peer 1 accuses peer 3, peer 2 accuses peer 1. -/
def run6 : PCall :=
  Toy.pcall (complaintsMsg (complain 1 1 3 0 0) (complain 2 1 1 0 0) (complain 3 0 0 0 0)) 0
def run7 : PCall := Toy.pcall [] 144

def wellFormed (c : PeerState) : Bool :=
  decide (2 ≤ c.t.toNat ∧ c.t.toNat < c.n.toNat ∧ c.n.toNat ≤ 128 ∧ c.lastTs.length = c.n.toNat ∧
    c.sigPks.length = c.n.toNat ∧ c.noisePks.length = c.n.toNat ∧ c.outs.length = c.n.toNat ∧
    c.ins.length = c.n.toNat ∧ c.shares.length = c.n.toNat ∧ c.xshares.length = c.n.toNat ∧
    c.mine.length = c.n.toNat ∧ c.commitments.length = c.n.toNat * c.t.toNat ∧
    c.complaints.length = c.n.toNat * c.n.toNat)

theorem wellFormed_elim {c : PeerState} (h : wellFormed c = true) : PWF c := by
  unfold wellFormed at h
  obtain ⟨h1, h2, h3, h4, h5, h6, h7, h8, h9, h10, h11, h12, h13⟩ := of_decide_eq_true h
  exact ⟨h1, h2, h3, h4, h5, h6, h7, h8, h9, h10, h11, h12, h13⟩

/-- A successful call and what holds after it. -/
def link (x : C (Int × PeerState × Bytes)) (k : PeerState → Bytes → Bool) : Bool :=
  match x with
  | .ok (r, c, o) => r == 0 && k c o
  | .ub _ => false

theorem link_elim {x : C (Int × PeerState × Bytes)} {k : PeerState → Bytes → Bool} (h : link x k = true) :
    ∃ c o, x = .ok (0, c, o) ∧ k c o = true := by
  unfold link at h
  split at h
  · rename_i r c o
    simp only [Bool.and_eq_true, beq_iff_eq] at h
    obtain ⟨rfl, h⟩ := h
    exact ⟨c, o, rfl, h⟩
  · cases h

/-- The state of a peer before it commits to its polynomial. -/
def before3 : C (List Int × PeerState) :=
  fresh >>= fun c => peerCalls (ZMod L) (fun _ => 5) c [call0, call1, run2]

theorem whole_run : Toy.isOk before3 (fun x => wellFormed x.2 && x.2.step == 3 && x.2.complaintsLen == 0 &&
    x.2.myLen == 0 && x.2.index == 1 && link (run3.run (ZMod L) (fun _ => 5) x.2) fun c4 _ =>
    wellFormed c4 && c4.index == 1 && c4.step == 4 && link (run4.run (ZMod L) (fun _ => 5) c4) fun c5 _ =>
    link (run5.run (ZMod L) (fun _ => 5) c5) fun c6 o5 => namedIn o5 == [3] &&
    link (run6.run (ZMod L) (fun _ => 5) c6) fun c7 _ => c7.step == 7 &&
    link (run7.run (ZMod L) (fun _ => 5) c7) fun _ o7 => slice o7 111 33 == 2 :: one) = true := by decide +kernel

/-- A run in which a peer answers the complaint of peer 2 and complains about peer 3. -/
example : ∃ c3 c4 c5 c6 c7 c8 o3 o4 o5 o6 o7, PWF c3 ∧ c3.step = 3 ∧ c3.complaintsLen = 0 ∧ c3.myLen = 0 ∧
    (∀ k, RandomScalar (run3.rnd.coeff k)) ∧ run3.run (ZMod L) (fun _ => 5) c3 = .ok (0, c4, o3) ∧
    (PWF c4 ∧ c4.step = 4 ∧ c4.index ≠ 0) ∧ run4.run (ZMod L) (fun _ => 5) c4 = .ok (0, c5, o4) ∧
    run5.run (ZMod L) (fun _ => 5) c5 = .ok (0, c6, o5) ∧ namedIn o5 = [3] ∧
    run6.run (ZMod L) (fun _ => 5) c6 = .ok (0, c7, o6) ∧ c7.step = 7 ∧
    run7.run (ZMod L) (fun _ => 5) c7 = .ok (0, c8, o7) ∧ slice o7 111 33 = 2 :: one := by
  obtain ⟨⟨rs, c3⟩, -, h⟩ := Toy.isOk_elim whole_run
  simp only [Bool.and_eq_true, beq_iff_eq] at h
  obtain ⟨⟨⟨⟨⟨w, s3⟩, hl⟩, hm⟩, -⟩, h⟩ := h
  obtain ⟨c4, o3, h3, h⟩ := link_elim h
  simp only [Bool.and_eq_true, beq_iff_eq] at h
  obtain ⟨⟨⟨w4, i4⟩, s4⟩, h⟩ := h
  obtain ⟨c5, o4, h4, h⟩ := link_elim h
  obtain ⟨c6, o5, h5, h⟩ := link_elim h
  simp only [Bool.and_eq_true, beq_iff_eq] at h
  obtain ⟨hn, h⟩ := h
  obtain ⟨c7, o6, h6, h⟩ := link_elim h
  simp only [Bool.and_eq_true, beq_iff_eq] at h
  obtain ⟨s7, h⟩ := h
  obtain ⟨c8, o7, h7, h⟩ := link_elim h
  simp only [beq_iff_eq] at h
  exact ⟨c3, c4, c5, c6, c7, c8, o3, o4, o5, o6, o7, wellFormed_elim w, s3, hl, hm,
    fun _ => Toy.randomScalar 1 one_ne_zero (by norm_num), h3, ⟨wellFormed_elim w4, s4, by rw [i4]; decide⟩, h4, h5, hn,
    h6, s7, h7, h⟩

theorem com_eq : ∀ j < 3, (commitmentsIn 2 run4.input j).drop 1 = [B32.ofZ 1] := by decide +kernel

/-- The commitments received in this run are well-formed. -/
example : ∀ j < 3, ∀ cm ∈ (commitmentsIn 2 run4.input j).drop 1, ∃ P : ZMod L, dec cm = some P ∧ P ≠ 0 := by
  intro j hj cm hcm
  rw [com_eq j hj, List.mem_singleton] at hcm
  rw [hcm]
  exact ⟨1, dec_enc (1 : ZMod L), one_ne_zero⟩

def isZero (x : C Int) : Bool := match x with | .ok r => r == 0 | .ub _ => false

theorem isZero_elim {x : C Int} (h : isZero x = true) : x = .ok 0 := by
  unfold isZero at h
  split at h
  · rw [beq_iff_eq.1 h]
  · cases h

theorem share_right (j : ℕ) (hj : j < 3) :
    RightFor (ZMod L) 1 (commitmentsIn 2 run4.input j) (toB32 (2 :: List.replicate 31 0)) := by
  refine (verify_right (ZMod L) (scratch := zero32) (t := 2) (i := 2)
    (share := ⟨1, toB32 (2 :: List.replicate 31 0)⟩) (by decide) (by simp [commitmentsIn]) (by decide) (by decide)).1
    (isZero_elim ?_)
  revert j
  decide +kernel

/-- The second commitment of peer 2 is an encoding of 0. -/
def bad4 : PCall := Toy.pcall (Toy.msg 636 7 0 0xff
  (com 1 ++ Toy.msg 175 6 2 0xff (one ++ List.replicate 32 0) ++ com 3)) 768

theorem bad_run : Toy.isOk before3 (fun x => link (run3.run (ZMod L) (fun _ => 5) x.2) fun c4 _ =>
    wellFormed c4 && c4.index == 1 && c4.step == 4 && link (bad4.run (ZMod L) (fun _ => 5) c4) fun c5 _ =>
    link (run5.run (ZMod L) (fun _ => 5) c5) fun c6 o5 => namedIn o5 == [] &&
      c6.xshares[2]? == some ⟨1, toB32 (9 :: List.replicate 31 0)⟩) = true := by decide +kernel

theorem bad_com : isZero (Dkg.verifyCommitment (ZMod L) zero32 2 1 2 (commitmentsIn 2 bad4.input 2)
    ⟨1, toB32 (9 :: List.replicate 31 0)⟩) = false := by decide +kernel

end DefenceToy

open DefenceToy in
attribute [local instance] Ristretto.toy Toy.hashes Toy.signing Toy.noise Toy.mac in
/-- **C65 is violated** for malformed commitments: the share that peer 1 gets from peer 3 is wrong for the commitments of
peer 3, but peer 2 has sent a commitment of 0, and peer 1 complains about nobody. -/
theorem C65_malformed_violated : ∃ c4 c5 c6 o4 o5 share, PWF c4 ∧ c4.step = 4 ∧ c4.index = 1 ∧
    bad4.run (ZMod L) (fun _ => 5) c4 = .ok (0, c5, o4) ∧ run5.run (ZMod L) (fun _ => 5) c5 = .ok (0, c6, o5) ∧
    c6.xshares[2]? = some share ∧ ¬ RightFor (ZMod L) 1 (commitmentsIn 2 bad4.input 2) share.value ∧
    namedIn o5 = [] := by
  obtain ⟨⟨rs, c3⟩, -, h⟩ := Toy.isOk_elim bad_run
  obtain ⟨c4, o3, h3, h⟩ := link_elim h
  simp only [Bool.and_eq_true, beq_iff_eq] at h
  obtain ⟨⟨⟨w, hi⟩, s4⟩, h⟩ := h
  obtain ⟨c5, o4, h4, h⟩ := link_elim h
  obtain ⟨c6, o5, h5, h⟩ := link_elim h
  simp only [Bool.and_eq_true, beq_iff_eq] at h
  refine ⟨c4, c5, c6, o4, o5, _, wellFormed_elim w, s4, hi, h4, h5, h.2, fun hr => ?_, h.1⟩
  have := (verify_right (ZMod L) (scratch := zero32) (t := 2) (i := 2)
    (share := ⟨1, toB32 (9 :: List.replicate 31 0)⟩) (by decide) (by simp [commitmentsIn]) (by decide) (by decide)).2 hr
  have hb := bad_com
  rw [this] at hb
  cases hb

/-! A code that does not commit to the key, and an encryption in which another key gives another share. -/

namespace CollisionToy

open DefenceToy

/-- The first byte of the key is added to the second byte of texts of 33 bytes. -/
def shift (d : UInt8) (p : Bytes) : Bytes :=
  if p.length = 33 then match p with
    | a :: b :: p => a :: (b + d) :: p
    | p => p
  else p

theorem shift_length (d : UInt8) (p : Bytes) : (shift d p).length = p.length := by
  unfold shift
  split
  · split <;> rfl
  · rfl

theorem shift_back (d : UInt8) (p : Bytes) : shift (-d) (shift d p) = p := by
  by_cases h : p.length = 33
  · obtain ⟨a, b, p, rfl⟩ : ∃ a b q, p = a :: b :: q := by
      match p, h with
      | a :: b :: q, _ => exact ⟨a, b, q, rfl⟩
    unfold shift
    rw [if_pos h]
    dsimp only
    rw [if_pos (by simpa using h), UInt8.add_assoc, UInt8.add_right_neg, UInt8.add_zero]
  · unfold shift
    rw [if_neg h, if_neg h]

@[reducible] def noise : NoiseCrypto where
  xbase b := b
  dh a b := some (B32.ofNat (a.toNat + b.toNat))
  aeadEnc k _ _ p := shift k[0] p ++ List.replicate 16 0
  aeadDec k _ _ c := if c.drop (c.length - 16) = List.replicate 16 0 then some (shift (-k[0]) (c.take (c.length - 16))) else none
  dh_comm a b := by rw [Nat.add_comm]
  dh_base _ _ := rfl
  enc_length _ _ _ _ := by simp [shift_length]
  dec_enc _ _ _ _ := by simp [shift_back]
  dec_length _ _ _ c p h := by
    split at h
    · rename_i h'
      have := congrArg List.length h'
      simp only [List.length_drop, List.length_replicate] at this
      simp only [Option.some.injEq] at h
      subst h
      rw [shift_length]
      simp only [List.length_take]
      omega
    · cases h

@[reducible] def mac : Mac := ⟨fun _ _ => zero32⟩

attribute [local instance] Ristretto.toy Toy.hashes Toy.signing noise mac

/-- The share of peer 3 is wrong with the key of the session. -/
def run5 : PCall := Toy.pcall (shr 1 3 (List.replicate 32 0) ++ shr 2 3 (List.replicate 32 0) ++
  shr 3 10 (List.replicate 32 0)) 115

def key' : B32 := toB32 (8 :: List.replicate 31 0)
def value' : B32 := toB32 (2 :: List.replicate 31 0)

theorem collision_run : Toy.isOk before3 (fun x =>
    link (run3.run (ZMod L) (fun _ => 5) x.2) fun c4 _ =>
    wellFormed c4 && c4.step == 4 && c4.index == 1 && c4.t == 2 && link (run4.run (ZMod L) (fun _ => 5) c4) fun c5 _ =>
    link (run5.run (ZMod L) (fun _ => 5) c5) fun _ o5 => namedIn o5 == [3]) = true := by decide +kernel

/-- The hypotheses of `C65_no_answer` can be met. -/
example : ∃ c4 c5 c6 o4 o5, PWF c4 ∧ c4.step = 4 ∧ c4.index ≠ 0 ∧ run4.run (ZMod L) (fun _ => 5) c4 = .ok (0, c5, o4) ∧
    run5.run (ZMod L) (fun _ => 5) c5 = .ok (0, c6, o5) ∧ 3 ∈ namedIn o5 ∧ Opens run5.input (3 - 1) key' ⟨c4.index, value'⟩ ∧
    RightFor (ZMod L) c4.index (commitmentsIn c4.t.toNat run4.input (3 - 1)) value' := by
  obtain ⟨⟨rs, c3⟩, -, h⟩ := Toy.isOk_elim collision_run
  obtain ⟨c4, o3, h3, h⟩ := link_elim h
  simp only [Bool.and_eq_true, beq_iff_eq] at h
  obtain ⟨⟨⟨⟨w, s4⟩, hi⟩, ht⟩, h⟩ := h
  obtain ⟨c5, o4, h4, h⟩ := link_elim h
  obtain ⟨c6, o5, h5, h⟩ := link_elim h
  simp only [beq_iff_eq] at h
  refine ⟨c4, c5, c6, o4, o5, wellFormed_elim w, s4, by rw [hi]; decide, h4, h5, by rw [h]; simp, ?_, ?_⟩
  · rw [hi]
    exact ⟨by decide +kernel, by decide +kernel⟩
  · rw [hi, ht]
    exact share_right 2 (by decide)

end CollisionToy

end Verif.Props
