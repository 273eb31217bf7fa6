import Verif.Proofs.WorldTp

/-!
# The states of the trusted party and of one peer that follows the protocol
-/

set_option linter.unusedSectionVars false

namespace Verif.TpDkg

open H Wire Spec.Wire Spec Ristretto Props

variable [Signing] [Hashes] [NoiseCrypto] [Mac] (G : Type) [Ristretto G]

/-! ## Parts of the invariant -/

/-- What holds in every state. -/
structure Base (eps : UInt64) (i : ℕ) (c : TP) (p : PeerState) : Prop where
  good : Good c
  wf : PWF p
  n : p.n = c.n
  t : p.t = c.t
  sid : p.sid = c.sid
  eps : c.eps = eps
  lt : i < c.n.toNat

/-- The peer has not yet received complaints. -/
structure Early (eps : UInt64) (i ts ps : ℕ) (d : Duo) : Prop where
  base : Base eps i d.tp d.peer
  len : d.peer.complaintsLen = 0
  mine : d.peer.myLen = 0
  ts : d.tp.step = ts
  ps : d.peer.step = ps

/-- The trusted party has the key of the peer. -/
structure Keyed (i : ℕ) (seed : B32) (d : Duo) : Prop where
  signer : Signer d.tp d.peer i seed
  key : pkOf d.tp i = Signing.pkOf seed

/-- One message of the peer is on its way. -/
def One (t0 : UInt64) (clock : ℕ → UInt64) (i : ℕ) (msgno rcp : UInt8) (body : Bytes) (d : Duo) : Prop :=
  ∃ lo k, Fresh t0 clock i lo d.tp ∧ lo ≤ k ∧ k < d.peer.ticks ∧ d.sent = signedBy d.peer msgno rcp (clock k) body

/-- Messages of the peer to all peers are on their way. -/
def Many (t0 : UInt64) (clock : ℕ → UInt64) (i : ℕ) (msgno : UInt8) (sz : ℕ) (d : Duo) : Prop :=
  ∃ (lo : ℕ) (ks : ℕ → ℕ), Fresh t0 clock i lo d.tp ∧ (∀ j < d.tp.n.toNat, lo ≤ ks j ∧ ks j < d.peer.ticks) ∧
    (∀ a b, a < b → b < d.tp.n.toNat → ks a < ks b) ∧ d.sent.length = d.tp.n.toNat * sz ∧
    ∀ j < d.tp.n.toNat, ∃ body : Bytes, 111 + body.length = sz ∧
      slice d.sent (j * sz) sz = signedBy d.peer msgno (idx j) (clock (ks j)) body

/-- The shares of the peer for the others are right for these commitments. -/
def SharesFor (cs : List B32) (c : TP) (p : PeerState) : Prop :=
  ∀ j < c.n.toNat, ∃ share, p.shares[j]? = some share ∧ share.index = idx j ∧ RightFor G (idx j) cs share.value

/-- The commitments that the peer has got are those of the trusted party. -/
def Heard (clock : ℕ → UInt64) (i : ℕ) (c : TP) (p : PeerState) : Prop :=
  ∃ c4 a4 o4, PWF c4 ∧ c4.step = 4 ∧ PCall.run G clock c4 a4 = .ok (0, p, o4) ∧ c4.index = idx i ∧ c4.n = c.n ∧ c4.t = c.t ∧
    ∀ j < c.n.toNat, commitmentsIn c.t.toNat a4.input j = dealt c j

/-- The peer can answer complaints. -/
def Defended (i : ℕ) (c : TP) (p : PeerState) : Prop :=
  ∀ j < c.n.toNat, ∃ key, outKey p j = some key ∧ ShareRight G c i (idx j) key ∧ Stored c i (idx j)

/-- The share of peer `j` for peer `i` is not right. -/
def Wronged (i : ℕ) (c : TP) (j : ℕ) : Prop :=
  ∃ (key : B32) (share : Share), (Mac.auth key (slice (storedBody c j (idx i)) 64 49)).toList = slice (storedBody c j (idx i)) 113 32 ∧
    NoiseCrypto.aeadDec key 0 [] (slice (storedBody c j (idx i)) 64 49) = some (share.index :: share.value.toList) ∧
    ¬ RightFor G (idx i) (dealt c j) share.value

/-- The complaints of peer `i` are right. -/
def Acc (i : ℕ) (c : TP) : Prop := ∀ x, pair (idx i) x ∈ c.known → x ≠ idx i ∧ Wronged G i c (x.toNat - 1)

/-- The peer knows the complaints about it. -/
def Against (i : ℕ) (c : TP) (p : PeerState) : Prop :=
  p.against.Nodup ∧ ∀ y, y ∈ p.against ↔ pair y (idx i) ∈ c.known

/-- The transcripts agree after the peer has read what is on its way to it. -/
def TrB (d : Duo) : Prop :=
  d.tp.transcript = if hears d.peer.step then updateTranscript d.peer.transcript d.inbox else d.peer.transcript

/-- What the peer does after complaints about it. -/
inductive Answers (t0 : UInt64) (clock : ℕ → UInt64) (i : ℕ) (seed : B32) (d : Duo) : Prop
  /-- It gets them. -/
  | six (hp : d.peer.step = 6) (hs : d.sent = []) (len : d.peer.complaintsLen = 0) (mine : d.peer.myLen = 0)
    (told : Told d.tp d.inbox) (sg : Signer d.tp d.peer i seed) (f : Fresh t0 clock i d.peer.ticks d.tp)
    (df : Defended G i d.tp d.peer)
  /-- It has to answer. -/
  | seven (hp : d.peer.step = 7) (hs : d.sent = []) (len : 0 < d.peer.complaintsLen)
    (mine : d.peer.myLen.toNat ≤ d.peer.n.toNat)
    (ag : Against i d.tp d.peer) (sg : Signer d.tp d.peer i seed) (f : Fresh t0 clock i d.peer.ticks d.tp)
    (df : Defended G i d.tp d.peer)
  /-- It has answered. -/
  | eight (hp : 8 ≤ d.peer.step) (p : PeerState) (lo k : ℕ) (tail : Bytes) (ag : Against i d.tp p)
    (sg : Signer d.tp p i seed) (f : Fresh t0 clock i lo d.tp) (hk : lo ≤ k) (df : Defended G i d.tp p)
    (hs : d.sent = signedBy p 11 0 (clock k) (p.against.flatMap (entry p)) ++ tail)

/-- The invariant. -/
inductive Duo.Inv (t0 eps : UInt64) (clock : ℕ → UInt64) (i : ℕ) : Duo → Prop
  | a0 (d : Duo) (e : Early eps i 0 0 d) (hin : d.inbox = []) (hs : d.sent = []) (f : Fresh t0 clock i d.peer.ticks d.tp)
    (tr : d.tp.transcript = d.peer.transcript) : Duo.Inv t0 eps clock i d
  | b1 (d : Duo) (e : Early eps i 1 0 d) (hin : d.inbox.getD 70 0 = idx i) (hs : d.sent = [])
    (f : Fresh t0 clock i d.peer.ticks d.tp) (tr : d.tp.transcript = d.peer.transcript) : Duo.Inv t0 eps clock i d
  | a1 (d : Duo) (seed : B32) (e : Early eps i 1 1 d) (hin : d.inbox = []) (sg : Signer d.tp d.peer i seed)
    (lo k : ℕ) (npk : B32) (sig : B64) (f : Fresh t0 clock i lo d.tp) (hlo : lo ≤ k) (hk : k < d.peer.ticks)
    (hs : d.sent = signedBy d.peer 2 0xff (clock k) ((Signing.pkOf seed).toList ++ npk.toList) ++ sig.toList)
    (tr : d.tp.transcript = d.peer.transcript) : Duo.Inv t0 eps clock i d
  | b (d : Duo) (seed : B32) (k : ℕ) (hk : k = 1 ∨ k = 2 ∨ k = 3) (e : Early eps i (k + 1) k d) (hs : d.sent = [])
    (ky : Keyed i seed d) (f : Fresh t0 clock i d.peer.ticks d.tp) (tr : TrB d) : Duo.Inv t0 eps clock i d
  | m (d : Duo) (seed : B32) (k : ℕ) (hk : k = 2 ∨ k = 3) (e : Early eps i k k d) (hin : d.inbox = [])
    (ky : Keyed i seed d) (m : Many t0 clock i (UInt8.ofNat (2 + k)) 159 d) (tr : d.tp.transcript = d.peer.transcript) :
    Duo.Inv t0 eps clock i d
  | a4 (d : Duo) (seed : B32) (e : Early eps i 4 4 d) (hin : d.inbox = []) (ky : Keyed i seed d) (body : Bytes)
    (hb : body.length = 32 * d.tp.t.toNat) (m : One t0 clock i 6 0xff body d)
    (sh : SharesFor G (sentCommitments d.tp.t.toNat d.sent) d.tp d.peer) (tr : d.tp.transcript = d.peer.transcript) :
    Duo.Inv t0 eps clock i d
  | b5 (d : Duo) (seed : B32) (e : Early eps i 5 4 d) (hs : d.sent = []) (ky : Keyed i seed d)
    (f : Fresh t0 clock i d.peer.ticks d.tp) (sh : SharesFor G (dealt d.tp i) d.tp d.peer)
    (hc : ∀ j < d.tp.n.toNat, commitmentsIn d.tp.t.toNat d.inbox j = dealt d.tp j) (tr : TrB d) : Duo.Inv t0 eps clock i d
  | a5 (d : Duo) (seed : B32) (e : Early eps i 5 5 d) (hin : d.inbox = []) (ky : Keyed i seed d)
    (m : Many t0 clock i 8 256 d) (hd : Heard G clock i d.tp d.peer)
    (op : ∀ j < d.tp.n.toNat, ∃ key value, outKey d.peer j = some key ∧ Opens d.sent j key ⟨idx j, value⟩ ∧
      RightFor G (idx j) (dealt d.tp i) value) (tr : d.tp.transcript = d.peer.transcript) : Duo.Inv t0 eps clock i d
  | b6 (d : Duo) (seed : B32) (e : Early eps i 6 5 d) (hs : d.sent = []) (ky : Keyed i seed d)
    (f : Fresh t0 clock i d.peer.ticks d.tp) (hd : Heard G clock i d.tp d.peer) (df : Defended G i d.tp d.peer)
    (hb : ∀ j < d.tp.n.toNat, slice d.inbox (j * 256) 256 = slice d.tp.encShares ((j * d.tp.n.toNat + i) * 256) 256)
    (tr : TrB d) : Duo.Inv t0 eps clock i d
  | a6 (d : Duo) (seed : B32) (e : Early eps i 6 6 d) (hin : d.inbox = []) (ky : Keyed i seed d) (xs : List UInt8)
    (df : Defended G i d.tp d.peer)
    (m : One t0 clock i 9 0xff (UInt8.ofNat xs.length :: (xs ++ List.replicate (d.tp.n.toNat - xs.length) 0)) d)
    (inc : (xs.map UInt8.toNat).Pairwise (· < ·))
    (hx : ∀ x ∈ xs, 1 ≤ x.toNat ∧ x.toNat ≤ d.tp.n.toNat ∧ x ≠ idx i ∧ Wronged G i d.tp (x.toNat - 1))
    (tr : d.tp.transcript = d.peer.transcript) : Duo.Inv t0 eps clock i d
  | s7 (d : Duo) (seed : B32) (b : Base eps i d.tp d.peer) (ht : d.tp.step = 7) (key : pkOf d.tp i = Signing.pkOf seed)
    (acc : Acc G i d.tp) (an : 0 < cnt d.tp.known i → Answers G t0 clock i seed d) : Duo.Inv t0 eps clock i d
  | s8a (d : Duo) (seed : B32) (e : Early eps i 8 6 d) (hs : d.sent = []) (ky : Keyed i seed d)
    (f : Fresh t0 clock i d.peer.ticks d.tp) (hc : ∀ j < d.tp.n.toNat, accused d.tp.n.toNat d.inbox j = []) (tr : TrB d) :
    Duo.Inv t0 eps clock i d
  | s8b (d : Duo) (seed : B32) (b : Base eps i d.tp d.peer) (ht : d.tp.step = 8) (hp : d.peer.step = 8) (hs : d.sent = [])
    (hin : d.inbox = []) (ky : Keyed i seed d) (f : Fresh t0 clock i d.peer.ticks d.tp)
    (tr : d.tp.transcript = d.peer.transcript) : Duo.Inv t0 eps clock i d
  | s8c (d : Duo) (seed : B32) (b : Base eps i d.tp d.peer) (ht : d.tp.step = 8) (hp : d.peer.step = 9)
    (hin : d.inbox = []) (ky : Keyed i seed d)
    (m : One t0 clock i 20 0 (Hashes.generichash32 d.tp.transcript).toList d) : Duo.Inv t0 eps clock i d
  | s9a (d : Duo) (seed : B32) (b : Base eps i d.tp d.peer) (ht : d.tp.step = 9) (hp : d.peer.step = 9)
    (hs : d.sent = []) (ky : Keyed i seed d) (f : Fresh t0 clock i d.peer.ticks d.tp) : Duo.Inv t0 eps clock i d
  | s9b (d : Duo) (seed : B32) (b : Base eps i d.tp d.peer) (ht : d.tp.step = 9) (hp : 10 ≤ d.peer.step) (p : PeerState)
    (sg : Signer d.tp p i seed) (key : pkOf d.tp i = Signing.pkOf seed) (lo k : ℕ) (body tail : Bytes) (hb : body.length = 2)
    (f : Fresh t0 clock i lo d.tp) (hk : lo ≤ k) (hs : d.sent = signedBy p 22 0 (clock k) body ++ tail) :
    Duo.Inv t0 eps clock i d
  | done (d : Duo) (b : Base eps i d.tp d.peer) (ht : 9 < d.tp.step) : Duo.Inv t0 eps clock i d

/-! ## Bookkeeping -/

variable {t0 eps : UInt64} {clock tpClock : ℕ → UInt64} {c c' : TP} {p p' : PeerState} {input out o : Bytes}
  {i j lo hi : ℕ} {seed : B32} {d : Duo} {log : Bool} {scratch : B32} {r : Int} {a : PCall}

theorem Base.tp (b : Base eps i c p) (hr : tpNext G tpClock log scratch c input out = .ok (r, c', o)) : Base eps i c' p := by
  have hk := (keep_tpNext G hr).1
  have hn : c'.n = c.n := hk.n
  exact ⟨good_next G b.good hr, b.wf, by rw [b.n, hn], by rw [b.t]; exact hk.t.symm, by rw [b.sid]; exact hk.sid.symm,
    by rw [← b.eps]; exact hk.eps, by rw [hn]; exact b.lt⟩

theorem Base.peer (b : Base eps i c p) (hr : a.run G clock p = .ok (r, p', o)) : Base eps i c p' := by
  have e := peerNext_params G hr
  exact ⟨b.good, peerNext_pwf G hr b.wf, by rw [e.1, b.n], by rw [e.2.1, b.t], by rw [e.2.2.1, b.sid], b.eps, b.lt⟩

theorem Signer.peer (s : Signer c p i seed) (h0 : p.step ≠ 0) (hr : a.run G clock p = .ok (r, p', o)) : Signer c p' i seed := by
  have e := peerNext_params G hr
  have k := peerNext_keys G hr h0
  exact ⟨by rw [e.2.2.1, s.sid], by rw [k.1, s.index], by rw [k.2.1, s.sk]⟩

theorem Signer.tp (s : Signer c p i seed) (hr : tpNext G tpClock log scratch c input out = .ok (r, c', o)) :
    Signer c' p i seed := by
  have hk := (keep_tpNext G hr).1
  exact ⟨by rw [s.sid]; exact hk.sid.symm, s.index, s.sk⟩

theorem Keyed.peer {inbox sent : Bytes} (k : Keyed i seed d) (h0 : d.peer.step ≠ 0) (hr : a.run G clock d.peer = .ok (r, p', o)) :
    Keyed i seed ⟨d.tp, p', inbox, sent⟩ := ⟨k.signer.peer G h0 hr, k.key⟩

theorem Keyed.tp {inbox sent : Bytes} (k : Keyed i seed d) (hr : tpNext G tpClock log scratch d.tp input out = .ok (r, c', o))
    (hk : c'.sigPks = d.tp.sigPks) : Keyed i seed ⟨c', d.peer, inbox, sent⟩ :=
  ⟨k.signer.tp G hr, by have := k.key; unfold pkOf at this ⊢; rw [hk]; exact this⟩

theorem signedBy_peer (h0 : p.step ≠ 0) (hr : a.run G clock p = .ok (r, p', o)) (msgno rcp : UInt8) (now : UInt64) (body : Bytes) :
    signedBy p msgno rcp now body = signedBy p' msgno rcp now body := by
  have e := peerNext_params G hr
  have k := peerNext_keys G hr h0
  unfold signedBy
  rw [e.2.2.1, k.1, k.2.1]

theorem part_length (h7 : c.step ≠ 7) (hi : i < c.n.toNat) (hl : input.length = inputOf c * c.n.toNat) :
    (partOf c input i).length = inputOf c := by
  rw [partOf_eq h7 hi]
  apply slice_length
  have := Nat.mul_le_mul_right (inputOf c) (show i + 1 ≤ c.n.toNat from hi)
  rw [Nat.add_mul, Nat.one_mul] at this
  rw [hl, Nat.mul_comm (inputOf c)]
  omega

theorem part_slice (h7 : c.step ≠ 7) (hi : i < c.n.toNat) {off len : ℕ} (h : off + len ≤ inputOf c) :
    slice input (i * inputOf c + off) len = slice (partOf c input i) off len := by
  rw [partOf_eq h7 hi, slice_slice h]

/-! ## The messages of the peer are its own -/

/-- The expected messages of peer `i` are its own. -/
def Owned (t0 : UInt64) (clock : ℕ → UInt64) (i hi : ℕ) (c : TP) (input : Bytes) : Prop :=
  ∃ p seed lo f, Signer c p i seed ∧ Fresh t0 clock i lo c ∧ lo ≤ hi ∧ Own clock c p input i seed lo hi f

theorem owned_none (f : Fresh t0 clock i hi c) (h : expected c input = []) (p : PeerState) (hs : p.sid = c.sid) :
    Owned t0 clock i hi c input := by
  refine ⟨{ p with index := idx i, sigSk := Signing.skOf zero32 }, zero32, hi, fun _ => 0, ⟨hs, rfl, rfl⟩, f, Nat.le_refl _, ?_, ?_⟩
  · intro m e hm
    rw [h] at hm
    cases hm
  · intro m m' e e' hm
    rw [h] at hm
    cases hm

theorem owned_one {F : ℕ → Exp} {k : ℕ} {body tail : Bytes} {sent : Bytes} (sg : Signer c p i seed)
    (key : pkOf c i = Signing.pkOf seed) (f : Fresh t0 clock i lo c) (hk : lo ≤ k ∧ k < hi) (h7 : c.step ≠ 7)
    (hi' : i < c.n.toNat) (hl : input.length = inputOf c * c.n.toNat) (hp : partOf c input i = sent)
    (hF : expected c input = exps F c.n.toNat) (hFi : ∀ m, F m = ⟨m, m * inputOf c, inputOf c, (F m).msgno, (F m).rcp, pkOf c m,
      (F m).rstep, (F m).base, (F m).other⟩) (hb : 111 + body.length = inputOf c)
    (hs : sent = signedBy p (F i).msgno (F i).rcp (clock k) body ++ tail) (h32 : inputOf c < 2 ^ 32) :
    Owned t0 clock i hi c input ∧ tail = [] := by
  have hpl := part_length h7 hi' hl
  rw [hp, hs, List.length_append, signedBy_length] at hpl
  have ht : tail = [] := List.length_eq_zero_iff.1 (by omega)
  subst ht
  have hsl := part_slice (input := input) h7 hi' (Nat.le_of_eq (Nat.zero_add (inputOf c)))
  have hil : i * inputOf c + inputOf c ≤ input.length := by
    have := Nat.mul_le_mul_right (inputOf c) (show i + 1 ≤ c.n.toNat from hi')
    rw [Nat.add_mul, Nat.one_mul] at this
    rw [hl, Nat.mul_comm (inputOf c)]
    omega
  rw [hp, hs, List.append_nil, Nat.add_zero] at hsl
  refine ⟨⟨p, seed, lo, fun _ => k, sg, f, by omega, own_single hF (fun m => by rw [hFi]) hk ?_ ?_ ?_ (body := body) ?_ ?_⟩, rfl⟩
  · rw [hFi]; exact hil
  · rw [hFi]; exact h32
  · rw [hFi]; exact key
  · rw [hFi]; exact hb
  · rw [hFi]
    dsimp only
    rw [hsl, ← hb, ← signedBy_length p (F i).msgno (F i).rcp (clock k) body]
    exact slice_full

theorem owned_many {F : ℕ → Exp} {sz : ℕ} {msgno : UInt8} (b : Base eps i d.tp d.peer) (ky : Keyed i seed d)
    (m : Many t0 clock i msgno sz d) (h7 : d.tp.step ≠ 7) (hin : inputOf d.tp = sz * d.tp.n.toNat)
    (hl : input.length = inputOf d.tp * d.tp.n.toNat) (hp : partOf d.tp input i = d.sent)
    (hF : expected d.tp input = exps F (d.tp.n.toNat * d.tp.n.toNat))
    (hFi : ∀ m, F m = ⟨m % d.tp.n.toNat, (m % d.tp.n.toNat * d.tp.n.toNat + m / d.tp.n.toNat) * sz, sz, msgno,
      idx (m / d.tp.n.toNat), pkOf d.tp (m % d.tp.n.toNat), (F m).rstep, (F m).base, (F m).other⟩) (h32 : sz < 2 ^ 32) :
    Owned t0 clock i d.peer.ticks d.tp input := by
  obtain ⟨lo, ks, f, h1, h2, h3, h4⟩ := m
  have hn : 0 < d.tp.n.toNat := by have := b.lt; omega
  have := h1 0 hn
  refine ⟨d.peer, seed, lo, _, ky.signer, f, by omega, own_batch hF hFi b.lt ?_ h1 h2 h32 ky.key fun j hj => ?_⟩
  · rw [hl, hin]; ring
  · obtain ⟨body, h5, h6⟩ := h4 j hj
    refine ⟨body, h5, ?_⟩
    rw [← h6, ← hp, ← part_slice h7 b.lt]
    · congr 1
      rw [hin]; ring
    · have := Nat.mul_le_mul_right sz (show j + 1 ≤ d.tp.n.toNat from hj)
      rw [Nat.add_mul, Nat.one_mul] at this
      rw [hin, Nat.mul_comm sz]
      omega

theorem owned_fine (hc : GoodClock t0.toNat eps clock) (h0 : 0 < t0.toNat) (hw : t0.toNat + 2 * eps.toNat < 2 ^ 64)
    (b : Base eps i c p) (h : Owned t0 clock i hi c input) : FineMessages tpClock c input i := by
  obtain ⟨p, seed, lo, f, h1, h2, h3, h4⟩ := h
  exact own_fine hc h0 hw b.eps h1 h2 h4

theorem owned_next (hc : GoodClock t0.toNat eps clock) (b : Base eps i c p) (h7 : c.step ≠ 7)
    (h : Owned t0 clock i hi c input) (hr : tpNext G tpClock log scratch c input out = .ok (r, c', o)) :
    Fresh t0 clock i hi c' := by
  obtain ⟨p, seed, lo, f, h1, h2, h3, h4⟩ := h
  exact fresh_next G hc b.good h7 b.lt h2 h4 h3 hr

end Verif.TpDkg
