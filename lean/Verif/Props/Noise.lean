import Verif.Proofs.Noise

/-!
# Properties of the Noise XK sessions: C54, C55, C59, C60, C61
-/

set_option linter.unusedSectionVars false

namespace Verif.Props

open Noise NoiseCrypto
open Spec.NoiseXK (Net Ev Call encryptions writer other after allowed)

section
variable [Hashes] [NoiseCrypto]

/-- The initiator's device knows the responder under `pid`, the responder's device knows the initiator, both hold a
static key pair and use the same prologue, and neither ran out of session numbers. -/
structure Paired (I R : Device) (pid : UInt32) (peer : Peer) : Prop where
  keyI : I.spub = xbase I.spriv
  keyR : R.spub = xbase R.spriv
  prologue : I.prologue = R.prologue
  countI : I.statesCounter ≠ 4294967295
  countR : R.statesCounter ≠ 4294967295
  pid_ne : pid ≠ 0
  known : ∃ p, I.peers.find? (fun p => p.id == pid) = some p ∧ p.s = R.spub
  /-- the entry of the responder's list for the initiator's key -/
  accepted : R.peers.find? (fun p => p.s == I.spub) = some peer

/-- Messages that message number `step` (3 in transport) can carry: short enough, and empty or asking for a
confidentiality level that the step meets. -/
def Sendable (step : ℕ) (em : Encap) : Prop :=
  em.msg.length ≤ (if step < 3 then 4294967215 else 4294967279) ∧
    (em.msg = [] ∨ ∃ l, em.level = .conf l ∧ l ∈ allowed step)

/-- Two sessions in transport state that can talk to each other. -/
def Connected (i r : Session) : Prop :=
  ∃ ti tr, i.role = .initiator ∧ r.role = .responder ∧ i.st = .transport ti ∧ r.st = .transport tr ∧
    ti.sendKey = tr.recvKey ∧ tr.sendKey = ti.recvKey ∧ ti.h = tr.h ∧
    ti.sendNonce = 0 ∧ ti.recvNonce = 0 ∧ tr.sendNonce = 0 ∧ tr.recvNonce = 0

/-- C54, handshake: for all keys, prologues and payloads, passing on the three messages unmodified takes both sides to
transport state with matching keys. The messages have 48, 48 and 64 bytes more than their payloads, every payload
arrives with the authentication level of its step, and the responder has identified the initiator's static key. -/
theorem C54_handshake {I R : Device} {pid : UInt32} {peer : Peer} (hp : Paired I R pid peer) (ei er : B32)
    {em1 em2 em3 : Encap} (s1 : Sendable 0 em1) (s2 : Sendable 1 em2) (s3 : Sendable 2 em3) :
    ∃ i0 r0 i1 r1 r2 i2 i3 r3 m1 m2 m3,
      (createInitiator I pid ei).1 = some i0 ∧ (createResponder R er).1 = some r0 ∧
      sessionWrite em1 i0 = (.success, some m1, i1) ∧
      sessionRead R.peers r0 m1 = (.success, some ⟨.auth 0, em1.msg⟩, r1) ∧
      sessionWrite em2 r1 = (.success, some m2, r2) ∧
      sessionRead I.peers i1 m2 = (.success, some ⟨.auth 2, em2.msg⟩, i2) ∧
      sessionWrite em3 i2 = (.success, some m3, i3) ∧
      sessionRead R.peers r2 m3 = (.success, some ⟨.auth 2, em3.msg⟩, r3) ∧
      m1.length = em1.msg.length + 48 ∧ m2.length = em2.msg.length + 48 ∧ m3.length = em3.msg.length + 64 ∧
      Connected i3 r3 ∧ r3.pid = peer.id ∧ peer.s = I.spub ∧ i3.pid = pid := by
  obtain ⟨kI, kR, pr, cI, cR, hpid, ⟨q, hq, hqs⟩, hacc⟩ := hp
  obtain ⟨kes, hes⟩ := Option.isSome_iff_exists.mp (dh_base ei R.spriv)
  obtain ⟨kee, hee⟩ := Option.isSome_iff_exists.mp (dh_base er ei)
  obtain ⟨kse, hse⟩ := Option.isSome_iff_exists.mp (dh_base I.spriv er)
  have hs := List.find?_some hacc
  rw [kI] at hacc
  obtain ⟨I1, R1, R2, I2, a1, a2, a3, a4, a5, a6⟩ := handshake_run (peersI := I.peers) (pidI := pid)
    (hs := mixHash (mixHash h0 R.prologue) R.spub.toList) hacc
    em1 em2 em3 s1.1 s2.1 s3.1
    ((secOk_allowed 0 em1).mpr s1.2) ((secOk_allowed 1 em2).mpr s2.2) ((secOk_allowed 2 em3).mpr s3.2) hes hee hse zero32 zero32 zero32
  refine ⟨_, _, I1, R1, R2, I2, _, _, _, _, _, ?_, ?_, a1, a2, a3, a4, a5, a6, ?_, ?_, ?_, ?_, rfl, ?_, rfl⟩
  · simp [createInitiator, cI, hpid, hq, hqs, kI, kR, pr]
  · simp [createResponder, cR, kR]
  · simp [enc_length]; omega
  · simp [enc_length]; omega
  · simp [enc_length]; omega
  · exact ⟨_, _, rfl, rfl, rfl, rfl, rfl, rfl, rfl, rfl, rfl, rfl, rfl⟩
  · simpa using hs

/-- C54, transport: whatever the two sides send and however sending and delivery interleave, every message that arrives
is accepted, and what a side has received is at all times the beginning of what the other side has sent; the rest is
on its way, message by message, each 16 bytes longer than its plaintext. -/
theorem C54_transport {i r : Session} (h : Connected i r) (peers : List Peer) (evs : List Ev) :
    let net := (Net.init i r).run peers evs
    net.refused = false ∧ ∀ w, net.got w <+: net.sent w ∧
      (net.wire w).map List.length = ((net.sent w).drop (net.got w).length).map fun p => p.length + 16 := by
  have hinv : Inv (Net.init i r) := by
    obtain ⟨ti, tr, h1, h2, h3, h4, h5, h6, _, h7, h8, h9, h10⟩ := h
    obtain ⟨_, pi, _⟩ := i
    obtain ⟨_, pr, _⟩ := r
    simp only at h1 h2 h3 h4
    subst h1 h2 h3 h4
    refine ⟨fun | .initiator => ti | .responder => tr, fun | .initiator => pi | .responder => pr, ?_, ?_, rfl⟩
    · rintro (_ | _) <;> rfl
    · rintro (_ | _)
      · exact ⟨[], h5, by simp [other, h7, h10], rfl, rfl, by simp⟩
      · exact ⟨[], h6, by simp [other, h8, h9], rfl, rfl, by simp⟩
  obtain ⟨t, pid, hs, hc, hr⟩ := inv_run (peers := peers) evs hinv
  refine ⟨hr, fun w => ?_⟩
  obtain ⟨pend, _, _, h3, h4, _⟩ := hc w
  refine ⟨⟨pend, h3.symm⟩, ?_⟩
  rw [h3, List.drop_left, h4]
  exact sealed_length ..

/-- C54, transport: a message within the size limit is sent as long as the counter has room. -/
theorem C54_send_succeeds {sn : Session} {t : TS} (h : sn.st = .transport t) (hn : t.sendNonce.toNat < 2 ^ 64 - 1)
    {em : Encap} (he : Sendable 3 em) :
    ∃ c, (sessionWrite em sn).1 = .success ∧ (sessionWrite em sn).2.1 = some c ∧ c.length = em.msg.length + 16 := by
  have h3 : ¬ t.sendNonce ≥ 18446744073709551615 := by
    apply UInt64.not_le.mpr
    rw [UInt64.lt_iff_toNat_lt]
    exact hn
  have hl := he.1
  simp only [Nat.lt_irrefl, if_false] at hl
  have hs := (secOk_allowed 3 em).mpr he.2
  simp only [OfNat.ofNat_ne_zero, if_false, OfNat.ofNat_ne_one] at hs
  exact ⟨aeadEnc t.sendKey t.sendNonce [] em.msg, by simp [sessionWrite, h, hl, hs, transportWrite, h3],
    by simp [sessionWrite, h, hl, hs, transportWrite, h3], enc_length ..⟩

/-- C59: the handshake is the one the Noise specification prescribes for
`Noise_XK_25519_ChaChaPoly_BLAKE2b`: the same three messages, transcript hash and transport keys, the initiator
sending with the first one. -/
theorem C59_conforms {I R : Device} {pid : UInt32} {peer : Peer} (hp : Paired I R pid peer) (ei er : B32)
    {em1 em2 em3 : Encap} (s1 : Sendable 0 em1) (s2 : Sendable 1 em2) (s3 : Sendable 2 em3) :
    ∃ o, Spec.NoiseXK.handshake I.prologue ⟨I.spriv, I.spub⟩ ⟨ei, xbase ei⟩ ⟨R.spriv, R.spub⟩ ⟨er, xbase er⟩
        em1.msg em2.msg em3.msg = some o ∧
      ∃ i0 r0, (createInitiator I pid ei).1 = some i0 ∧ (createResponder R er).1 = some r0 ∧
      (sessionWrite em1 i0).2.1 = some o.m1 ∧
      (sessionWrite em2 (sessionRead R.peers r0 o.m1).2.2).2.1 = some o.m2 ∧
      (sessionWrite em3 (sessionRead I.peers (sessionWrite em1 i0).2.2 o.m2).2.2).2.1 = some o.m3 ∧
      (∃ h, h.toList = o.h ∧ (sessionWrite em3 (sessionRead I.peers (sessionWrite em1 i0).2.2 o.m2).2.2).2.2.st =
        .transport ⟨h, o.k1, 0, o.k2, 0⟩) := by
  obtain ⟨kI, kR, pr, cI, cR, hpid, ⟨q, hq, hqs⟩, hacc⟩ := hp
  obtain ⟨kes, hes⟩ := Option.isSome_iff_exists.mp (dh_base ei R.spriv)
  obtain ⟨kee, hee⟩ := Option.isSome_iff_exists.mp (dh_base er ei)
  obtain ⟨kse, hse⟩ := Option.isSome_iff_exists.mp (dh_base I.spriv er)
  rw [kI] at hacc
  obtain ⟨I1, R1, R2, I2, a1, a2, a3, a4, a5, a6⟩ := handshake_run (peersI := I.peers) (pidI := pid)
    (hs := mixHash (mixHash h0 R.prologue) (xbase R.spriv).toList) hacc
    em1 em2 em3 s1.1 s2.1 s3.1
    ((secOk_allowed 0 em1).mpr s1.2) ((secOk_allowed 1 em2).mpr s2.2) ((secOk_allowed 2 em3).mpr s3.2) hes hee hse zero32 zero32 zero32
  have hc := conforms (prologue := R.prologue) em1.msg em2.msg em3.msg hes hee hse
  refine ⟨_, by rw [kI, kR, pr]; exact hc,
    ⟨.initiator, pid, .handshake ⟨0, zero32, h0, mixHash (mixHash h0 R.prologue) (xbase R.spriv).toList,
      I.spriv, xbase I.spriv, ei, xbase ei, xbase R.spriv, zero32⟩⟩,
    ⟨.responder, 0, .handshake ⟨0, zero32, h0, mixHash (mixHash h0 R.prologue) (xbase R.spriv).toList,
      R.spriv, xbase R.spriv, er, xbase er, zero32, zero32⟩⟩, ?_, ?_, ?_, ?_, ?_, ?_⟩
  · simp [createInitiator, cI, hpid, hq, hqs, kI, kR, pr]
  · simp [createResponder, cR, kR]
  · exact congrArg (·.2.1) a1
  · rw [a2]; exact congrArg (·.2.1) a3
  · rw [a1]; dsimp only; rw [a4]; exact congrArg (·.2.1) a5
  · rw [a1]; dsimp only; rw [a4]; exact ⟨_, rfl, congrArg (·.2.2.st) a5⟩

/-- C60: whatever a responder is sent, it enters transport state only with a peer of its device: its peer id is then one
of the list. -/
theorem C60_only_known_peers (R : Device) (er : B32) {r0 : Session} (h : (createResponder R er).1 = some r0)
    (cs : List (Encap ⊕ Bytes)) {t : TS} (ht : (after R.peers cs r0).st = .transport t) :
    ∃ p ∈ R.peers, p.id = (after R.peers cs r0).pid := by
  have hk : ∀ cs sn, KnownPeer R.peers sn → KnownPeer R.peers (after R.peers cs sn) := by
    intro cs
    induction cs with
    | nil => exact fun _ h => h
    | cons c cs ih =>
      rcases c with c | c
      · exact fun sn h => ih _ (knownPeer_write h)
      · exact fun sn h => ih _ (knownPeer_read h)
  have h0 : KnownPeer R.peers r0 := by
    unfold createResponder at h
    split at h
    · cases h
    · simp only [Option.some.injEq] at h
      subst h
      exact ⟨rfl, fun _ h => by cases h⟩
  exact (hk cs r0 h0).2 t ht

/-- C60: peer ids identify peers: adding a peer gives an id no other peer of the device has, and refuses a key that is
already there. -/
theorem C60_add_peer {dv : Device} (h : ∀ p ∈ dv.peers, 0 < p.id ∧ p.id < dv.peersCounter) (h0 : 0 < dv.peersCounter)
    (hnd : (dv.peers.map (·.s)).Nodup ∧ (dv.peers.map (·.id)).Nodup) (rs : B32) :
    let r := deviceAddPeer dv rs
    ((r.1 = none → r.2 = dv) ∧ (rs ∈ dv.peers.map (·.s) → r.1 = none) ∧
      (∀ i, r.1 = some i → r.2.peers = ⟨i, rs⟩ :: dv.peers ∧ i ≠ 0)) ∧
    (∀ p ∈ r.2.peers, 0 < p.id ∧ p.id < r.2.peersCounter) ∧ 0 < r.2.peersCounter ∧
      (r.2.peers.map (·.s)).Nodup ∧ (r.2.peers.map (·.id)).Nodup := by
  intro r
  by_cases hc : dv.peersCounter = 4294967295 ∨ (dv.peers.find? fun p => p.s == rs).isSome = true
  · have hr : r = (none, dv) := by simp only [r, deviceAddPeer]; rw [if_pos hc]
    rw [hr]
    exact ⟨⟨fun _ => rfl, fun _ => rfl, fun _ h => by cases h⟩, h, h0, hnd⟩
  · have hr : r = (some dv.peersCounter, { dv with peers := ⟨dv.peersCounter, rs⟩ :: dv.peers, peersCounter := dv.peersCounter + 1 }) := by
      simp only [r, deviceAddPeer]; rw [if_neg hc]
    rw [hr]
    rw [not_or] at hc
    obtain ⟨c1, c2⟩ := hc
    have hnot : rs ∉ dv.peers.map (·.s) := by
      intro hm
      obtain ⟨p, hp, rfl⟩ := List.mem_map.mp hm
      apply c2
      rw [List.find?_isSome]
      exact ⟨p, hp, by simp⟩
    have hlt : ∀ x : UInt32, x ≤ dv.peersCounter → x < dv.peersCounter + 1 := by
      intro x hx
      rw [UInt32.lt_iff_toNat_lt, UInt32.toNat_add]
      rw [UInt32.le_iff_toNat_le] at hx
      have h1 := dv.peersCounter.toNat_lt
      have h2 : dv.peersCounter.toNat ≠ 4294967295 := fun h => c1 (UInt32.toNat_inj.mp h)
      show _ < (_ + 1) % 4294967296
      rw [Nat.mod_eq_of_lt (by omega)]
      omega
    have hle : ∀ x : UInt32, x < dv.peersCounter → x ≤ dv.peersCounter := fun x hx => by
      rw [UInt32.le_iff_toNat_le]; rw [UInt32.lt_iff_toNat_lt] at hx; omega
    refine ⟨⟨fun h => absurd h (by simp), fun h => absurd h hnot, ?_⟩, ?_, ?_, ?_, ?_⟩
    · intro i hi
      simp only [Option.some.injEq] at hi
      subst hi
      refine ⟨rfl, fun h => ?_⟩
      rw [h] at h0
      exact absurd h0 (by decide)
    · intro p hp
      rcases List.mem_cons.mp hp with rfl | hp
      · exact ⟨h0, hlt _ (by rw [UInt32.le_iff_toNat_le])⟩
      · exact ⟨(h p hp).1, hlt _ (hle _ (h p hp).2)⟩
    · exact hlt 0 (hle _ h0)
    · exact List.nodup_cons.mpr ⟨hnot, hnd.1⟩
    · refine List.nodup_cons.mpr ⟨?_, hnd.2⟩
      intro hm
      obtain ⟨p, hp, hpi⟩ := List.mem_map.mp hm
      have := (h p hp).2
      rw [hpi] at this
      exact absurd (UInt32.lt_iff_toNat_lt.mp this) (Nat.lt_irrefl _)

/-- C55, nonces: from a session in any handshake state, along any calls with any inputs (failing ones included), the
successful encryptions in transport state all use one key and the counters 0, 1, 2, ... in order, never as far as
the reserved counter `2^64-1`. -/
theorem C55_nonces (sn : Session) (s : HS) (hs : sn.st = .handshake s) (cs : List Call) :
    ∃ k, (encryptions cs sn).length ≤ 2 ^ 64 - 1 ∧
      ∀ i (hi : i < (encryptions cs sn).length),
        ((encryptions cs sn)[i]).2 = aeadEnc k (UInt64.ofNat i) [] ((encryptions cs sn)[i]).1 := by
  obtain ⟨k, h1, h2⟩ := encryptions_fresh cs sn (by simp [Fresh, hs])
  refine ⟨k, h2, fun i hi => ?_⟩
  have h3 := congrArg (·[i]?) h1
  simp only [List.getElem?_eq_getElem hi, List.getElem?_mapIdx, Option.map_some, Option.some.injEq] at h3
  exact congrArg Prod.snd h3

/-- C55, nonces: the same for a session already in transport state, counting from where it is. -/
theorem C55_nonces_transport (sn : Session) (t : TS) (hs : sn.st = .transport t) (cs : List Call) :
    t.sendNonce.toNat + (encryptions cs sn).length ≤ 2 ^ 64 - 1 ∧
      ∀ i (hi : i < (encryptions cs sn).length),
        ((encryptions cs sn)[i]).2 = aeadEnc t.sendKey (t.sendNonce + UInt64.ofNat i) [] ((encryptions cs sn)[i]).1 := by
  obtain ⟨r, pid, st⟩ := sn
  simp only at hs
  subst hs
  obtain ⟨h1, h2⟩ := encryptions_transport cs r pid t
  refine ⟨h2, fun i hi => ?_⟩
  have h3 := congrArg (·[i]?) h1
  simp only [List.getElem?_eq_getElem hi, List.getElem?_mapIdx, Option.map_some, Option.some.injEq] at h3
  exact congrArg Prod.snd h3

/-- C55: a call that fails in transport state, for instance reading a forged message, leaves the session as it was. -/
theorem C55_failure_keeps_transport {sn : Session} {t : TS} (h : sn.st = .transport t) (peers : List Peer)
    (em : Encap) (input : Bytes) :
    ((sessionWrite em sn).1.isSuccess = false → (sessionWrite em sn).2 = (none, sn)) ∧
    ((sessionRead peers sn input).1.isSuccess = false → (sessionRead peers sn input).2 = (none, sn)) := by
  obtain ⟨r, pid, st⟩ := sn
  simp only at h
  subst h
  constructor
  · rcases write_transport em r pid t with ⟨hw, _, _⟩ | ⟨e, hw⟩ <;> rw [hw]
    · intro h; cases h
    · intro _; rfl
  · unfold sessionRead transportRead
    dsimp only
    by_cases h1 : input.length ≥ 16
    · rw [if_pos h1]
      by_cases h2 : ¬ (input.length - 16 ≤ 4294967279 ∧ input.length = input.length - 16 + 16)
      · rw [if_pos h2]; intro _; rfl
      · rw [if_neg h2]
        by_cases h3 : t.recvNonce ≥ 18446744073709551615
        · rw [if_pos h3]; intro _; rfl
        · rw [if_neg h3]
          cases aeadDec t.recvKey t.recvNonce [] input with
          | none => intro _; rfl
          | some p => intro h; cases h
    · rw [if_neg h1]; intro _; rfl

/-- C61: a successful write carries no payload that asks for more confidentiality than the message gives, and with such
a payload the session is not changed. -/
theorem C61_confidentiality {sn : Session} {step : ℕ}
    (hst : (∃ s, sn.st = .handshake s ∧ s.step = step ∧ step < 3) ∨ ((∃ t, sn.st = .transport t) ∧ step = 3))
    {em : Encap} (hne : em.msg ≠ []) (hl : ∀ l, em.level = .conf l → l ∉ allowed step) :
    (sessionWrite em sn).1.isSuccess = false ∧ (sessionWrite em sn).2 = (none, sn) := by
  have hno : ¬ secOk (if step = 0 then 2 else if step = 1 then 1 else 5) em = true := by
    rw [secOk_allowed]
    rintro (h | ⟨l, h, h'⟩)
    · exact hne h
    · exact hl l h h'
  obtain ⟨r, pid, st⟩ := sn
  rcases hst with ⟨s, hs, rfl, h3⟩ | ⟨⟨t, hs⟩, rfl⟩ <;> simp only at hs <;> subst hs <;> unfold sessionWrite <;> dsimp only
  · rw [if_neg (by omega)]
    split
    · exact ⟨rfl, rfl⟩
    · rw [if_neg hno]; exact ⟨rfl, rfl⟩
  · simp only [OfNat.ofNat_ne_zero, if_false, OfNat.ofNat_ne_one] at hno
    split <;> exact ⟨rfl, rfl⟩

/-- C61: what a session hands out is labelled with the authentication of its message (none for message 0, known sender
resistant to key compromise impersonation otherwise), and unpacking for a level gives a non-empty payload only if the
label reaches it. -/
theorem C61_authentication {sn sn' : Session} {peers : List Peer} {input : Bytes} {em : Encap}
    (h : sessionRead peers sn input = (.success, some em, sn')) (req : ℕ) :
    ((∃ s, sn.st = .handshake s ∧ s.step = 0) → em.level = .auth 0) ∧
    ((¬ ∃ s, sn.st = .handshake s ∧ s.step = 0) → em.level = .auth 2) ∧
    (∀ m, unpack req em = some m → m = em.msg ∧ (m ≠ [] → ∃ l, em.level = .auth l ∧ req ≤ l)) ∧
    ((∃ l, em.level = .auth l ∧ req ≤ l) → unpack req em = some em.msg) := by
  rw [← and_assoc]
  refine ⟨?_, ?_, ?_⟩
  · obtain ⟨r, pid, st⟩ := sn
    cases st with
    | transport t =>
      unfold sessionRead at h
      dsimp only at h
      split at h
      · split at h
        · simp only [Prod.mk.injEq, Option.some.injEq, true_and] at h
          obtain ⟨rfl, _⟩ := h
          simp
        · simp at h
      · simp at h
    | handshake s =>
      unfold sessionRead at h
      dsimp only at h
      split at h
      · simp at h
      · split at h
        · split at h
          · simp at h
          · split at h
            · simp only [Prod.mk.injEq, Option.some.injEq, true_and] at h
              obtain ⟨rfl, _⟩ := h
              simp
            · simp at h
        · simp at h
  · intro m hm
    unfold unpack at hm
    by_cases h0 : em.msg.length = 0
    · simp only [h0, if_true, Option.some.injEq] at hm
      subst hm
      exact ⟨rfl, fun h => absurd (List.length_eq_zero_iff.mp h0) h⟩
    · simp only [h0, if_false] at hm
      cases hl : em.level with
      | auth l =>
        simp only [hl] at hm
        split at hm
        · rename_i h1
          simp only [Option.some.injEq] at hm
          exact ⟨hm.symm, fun _ => ⟨l, rfl, by simpa using h1⟩⟩
        · cases hm
      | conf l => simp [hl] at hm
      | none => simp [hl] at hm
  · rintro ⟨l, hl, hr⟩
    unfold unpack
    simp [hl, hr]

/-- C55, turns (reading): reading a handshake message when it is not the other side's turn to write is refused and
leaves the session as it was. -/
theorem C55_read_out_of_turn {sn : Session} {s : HS} (h : sn.st = .handshake s) (hw : writer s.step ≠ some (other sn.role))
    (peers : List Peer) (input : Bytes) :
    ∃ rc, sessionRead peers sn input = (rc, none, sn) ∧ rc.isSuccess = false := by
  obtain ⟨r, pid, st⟩ := sn
  simp only at h hw
  subst h
  by_cases h4 : s.step ≥ 4
  · exact ⟨.stuck .incorrectTransition, by simp [sessionRead, h4], rfl⟩
  · have : s.step = 0 ∨ s.step = 1 ∨ s.step = 2 ∨ s.step = 3 := by omega
    refine ⟨.error .incorrectTransition, ?_, rfl⟩
    rcases this with h | h | h | h <;> cases r <;> simp_all [writer, other, sessionRead, readTurn]

/-- C55, turns (writing, partial): writing a handshake message out of turn is refused and yields no message. That the
step does not change is missing: see `C55_write_out_of_turn_stuck`. -/
theorem C55_write_out_of_turn_partial {sn : Session} {s : HS} (h : sn.st = .handshake s)
    (hw : writer s.step ≠ some sn.role) (em : Encap) :
    (sessionWrite em sn).1.isSuccess = false ∧ (sessionWrite em sn).2.1 = none := by
  obtain ⟨r, pid, st⟩ := sn
  simp only at h hw
  subst h
  by_cases h4 : s.step ≥ 4
  · simp [sessionWrite, h4, RCode.isSuccess]
  · have : s.step = 0 ∨ s.step = 1 ∨ s.step = 2 ∨ s.step = 3 := by omega
    rcases this with h | h | h | h <;> cases r <;> simp_all [writer, sessionWrite, nextLen, handshakeWrite] <;>
      (first | rfl | (split <;> (try split) <;> simp [RCode.isSuccess]))

/-- C55 does not hold for writing: an empty write out of turn sets the step to 4, and from then on the session refuses
every call, also the read it was waiting for. -/
theorem C55_write_out_of_turn_stuck {sn : Session} {s : HS} (h : sn.st = .handshake s) (h3 : s.step < 3)
    (hw : writer s.step ≠ some sn.role) (lvl : Level) :
    ∃ s', (sessionWrite ⟨lvl, []⟩ sn).2.2.st = .handshake s' ∧ s'.step = 4 ∧ s'.step ≠ s.step ∧
      ∀ peers input, (sessionRead peers (sessionWrite ⟨lvl, []⟩ sn).2.2 input).1 = .stuck .incorrectTransition := by
  obtain ⟨r, pid, st⟩ := sn
  simp only at h hw
  subst h
  have : s.step = 0 ∨ s.step = 1 ∨ s.step = 2 := by omega
  rcases this with h | h | h <;> cases r <;>
    simp_all [writer, sessionWrite, nextLen, handshakeWrite, secOk, sessionRead]

end

/-! ### The hypotheses can be met -/

section
attribute [local instance] Toy.hashes Toy.noise

/-- Devices that know each other -/
def exI : Device := (deviceAddPeer (deviceCreate [1, 2, 3] (B32.ofNat 5)) (B32.ofNat 7)).2
def exR : Device := (deviceAddPeer (deviceCreate [1, 2, 3] (B32.ofNat 7)) (B32.ofNat 5)).2

theorem exPaired : Paired exI exR 1 ⟨1, B32.ofNat 5⟩ where
  keyI := rfl
  keyR := rfl
  prologue := rfl
  countI := by decide
  countR := by decide
  pid_ne := by decide
  known := ⟨⟨1, B32.ofNat 7⟩, by decide, rfl⟩
  accepted := by decide

example := C54_handshake exPaired (B32.ofNat 9) (B32.ofNat 11) (em1 := ⟨.conf 2, [1]⟩) (em2 := ⟨.conf 1, [2, 3]⟩)
  (em3 := ⟨.conf 5, [4]⟩) ⟨by decide, .inr ⟨2, rfl, by decide⟩⟩
  ⟨by decide, .inr ⟨1, rfl, by decide⟩⟩ ⟨by decide, .inr ⟨5, rfl, by decide⟩⟩

example := C59_conforms exPaired (B32.ofNat 9) (B32.ofNat 11) (em1 := ⟨.conf 2, [1]⟩) (em2 := ⟨.conf 1, [2, 3]⟩)
  (em3 := ⟨.conf 5, [4]⟩) ⟨by decide, .inr ⟨2, rfl, by decide⟩⟩
  ⟨by decide, .inr ⟨1, rfl, by decide⟩⟩ ⟨by decide, .inr ⟨5, rfl, by decide⟩⟩

example := C60_add_peer (dv := exI) (by decide) (by decide) ⟨by decide, by decide⟩ (B32.ofNat 8)

/-- A run of a responder that does get to transport state -/
example : ∃ t, (after exR.peers [.inr (List.replicate 48 0), .inl ⟨.conf 1, []⟩,
    .inr ((B32.ofNat 5).toList ++ List.replicate 32 0)]
    ⟨.responder, 0, .handshake ⟨0, zero32, h0, h0, exR.spriv, exR.spub, zero32, zero32, zero32, zero32⟩⟩).st =
    .transport t := ⟨_, rfl⟩

/-- Connected sessions -/
def exT (a b : ℕ) : TS := ⟨h0, B32.ofNat a, 0, B32.ofNat b, 0⟩

example := C54_transport (i := ⟨.initiator, 1, .transport (exT 3 4)⟩) (r := ⟨.responder, 1, .transport (exT 4 3)⟩)
  ⟨_, _, rfl, rfl, rfl, rfl, rfl, rfl, rfl, rfl, rfl, rfl, rfl⟩

/-- An interleaving in which messages are received -/
example : ((Net.init ⟨.initiator, 1, .transport (exT 3 4)⟩ ⟨.responder, 1, .transport (exT 4 3)⟩).run []
    [.send .initiator ⟨.conf 5, [1]⟩, .send .responder ⟨.conf 0, [2]⟩, .send .initiator ⟨.conf 5, [3]⟩,
      .deliver .initiator, .deliver .responder, .deliver .initiator]).got .initiator = [[1], [3]] := by decide

example := C54_send_succeeds (sn := ⟨.initiator, 1, .transport (exT 3 4)⟩) (t := exT 3 4) rfl (by decide)
  (em := ⟨.conf 5, [1]⟩) ⟨by decide, .inr ⟨5, rfl, by decide⟩⟩

/-- A session at step 0 -/
def exH (step : ℕ) : HS :=
  ⟨step, zero32, h0, h0, B32.ofNat 5, B32.ofNat 5, B32.ofNat 9, B32.ofNat 9, B32.ofNat 7, zero32⟩

example := C55_nonces ⟨.initiator, 1, .handshake (exH 0)⟩ (exH 0) rfl
example := C55_nonces_transport ⟨.initiator, 1, .transport (exT 3 4)⟩ (exT 3 4) rfl
example : (encryptions [.write ⟨.conf 5, [1]⟩, .write ⟨.auth 5, [1]⟩, .read [] [1], .write ⟨.conf 2, [7]⟩]
  ⟨.initiator, 1, .transport (exT 3 4)⟩).map (·.1) = [[1], [7]] := by decide
example := C55_failure_keeps_transport (sn := ⟨.initiator, 1, .transport (exT 3 4)⟩) rfl
example := C61_confidentiality (sn := ⟨.initiator, 1, .handshake (exH 0)⟩) (step := 0) (.inl ⟨_, rfl, rfl, by decide⟩)
  (em := ⟨.conf 5, [1]⟩) (by decide) (by rintro l ⟨rfl⟩; decide)
example := C61_authentication (sn := ⟨.initiator, 1, .transport (exT 3 4)⟩) (peers := [])
  (input := [1] ++ List.replicate 16 0) (em := ⟨.auth 2, [1]⟩) rfl
example := C55_read_out_of_turn (sn := ⟨.initiator, 1, .handshake (exH 0)⟩) rfl (by decide)
example := C55_write_out_of_turn_partial (sn := ⟨.responder, 1, .handshake (exH 0)⟩) rfl (by decide)
example := C55_write_out_of_turn_stuck (sn := ⟨.responder, 1, .handshake (exH 0)⟩) rfl (by decide) (by decide)

end

end Verif.Props
