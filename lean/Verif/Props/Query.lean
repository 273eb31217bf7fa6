import Verif.Proofs.Query
import Verif.Props.Noise

/-!
# What a Noise session tells about itself (C71)
-/

set_option linter.unusedSectionVars false

namespace Verif.Props

open Noise Spec.NoiseLife
open Spec.NoiseXK (writer)

section
variable [Hashes] [NoiseCrypto]

/-- A session as it is made by a device -/
def Created (r : Role) (x : Live) : Prop :=
  (∃ dv pid e, r = .initiator ∧ (liveInitiator dv pid e).1 = some x) ∨ ∃ dv e, r = .responder ∧ (liveResponder dv e).1 = some x

/-- **C71.** `Noise_XK_session_compute_next_message_len` gives the length of the message that is written next, and refuses
only when no message can be written. -/
theorem C71_length (sn : Session) (em : Encap) (hl : em.msg.length < 2 ^ 32) :
    (∀ out sn', sessionWrite em sn = (.success, some out, sn') →
      ∃ l, nextMessageLen sn (UInt32.ofNat em.msg.length) = some l ∧ out.length = l.toNat) ∧
    (nextMessageLen sn (UInt32.ofNat em.msg.length) = none →
      (sessionWrite em sn).1 ≠ .success ∧ (sessionWrite em sn).2 = (none, sn)) := by
  obtain ⟨r, pid, st⟩ := sn
  have hto : (UInt32.ofNat em.msg.length).toNat = em.msg.length := by
    rw [UInt32.toNat_ofNat']
    exact Nat.mod_eq_of_lt hl
  have hle : ∀ b : ℕ, b < 2 ^ 32 → (UInt32.ofNat em.msg.length ≤ UInt32.ofNat b ↔ em.msg.length ≤ b) := by
    intro b hb
    rw [UInt32.le_iff_toNat_le, hto, UInt32.toNat_ofNat', Nat.mod_eq_of_lt hb]
  have h15 := hle 4294967215 (by norm_num)
  have h79 := hle 4294967279 (by norm_num)
  have hadd : ∀ k : ℕ, em.msg.length + k < 2 ^ 32 → (UInt32.ofNat em.msg.length + UInt32.ofNat k).toNat = em.msg.length + k := by
    intro k hk
    rw [UInt32.toNat_add, hto, UInt32.toNat_ofNat', Nat.mod_eq_of_lt (a := k) (by omega), Nat.mod_eq_of_lt hk]
  have a48 := hadd 48
  have a64 := hadd 64
  have a16 := hadd 16
  change (UInt32.ofNat em.msg.length ≤ (4294967215 : UInt32) ↔ _) at h15
  change (UInt32.ofNat em.msg.length ≤ (4294967279 : UInt32) ↔ _) at h79
  change _ → (UInt32.ofNat em.msg.length + (48 : UInt32)).toNat = _ at a48
  change _ → (UInt32.ofNat em.msg.length + (64 : UInt32)).toNat = _ at a64
  change _ → (UInt32.ofNat em.msg.length + (16 : UInt32)).toNat = _ at a16
  cases st with
  | transport t =>
    simp only [nextMessageLen, h79]
    rcases write_transport_cases em r pid t with ⟨out, t', e, h1, h2⟩ | ⟨e, he⟩
    · rw [e, if_pos h2]
      refine ⟨?_, by simp⟩
      intro o sn' h
      simp only [Prod.mk.injEq, Option.some.injEq, true_and] at h
      obtain ⟨rfl, -⟩ := h
      exact ⟨_, rfl, by rw [h1, a16 (by omega)]⟩
    · rw [he]
      exact ⟨by simp, by simp⟩
  | handshake s =>
    have hnl : ∀ l, nextLen s.step em.msg.length = some l →
        ∃ l', nextMessageLen ⟨r, pid, .handshake s⟩ (UInt32.ofNat em.msg.length) = some l' ∧ l = l'.toNat := by
      intro l h
      simp only [nextMessageLen, h15]
      unfold nextLen at h
      split_ifs at h ⊢ <;> simp only [Option.some.injEq] at h
      all_goals first
        | exact ⟨_, rfl, by rw [a48 (by omega)]; omega⟩
        | exact ⟨_, rfl, by rw [a64 (by omega)]; omega⟩
    rcases write_cases em r pid s with ⟨out, s', e, -, -, -, h4⟩ | ⟨e, he, -⟩ | ⟨e, s', he, hs, h4⟩
    · obtain ⟨l', e1, e2⟩ := hnl _ h4
      rw [e, e1]
      refine ⟨?_, by simp⟩
      intro o sn' h
      simp only [Prod.mk.injEq, Option.some.injEq, true_and] at h
      obtain ⟨rfl, -⟩ := h
      exact ⟨l', rfl, e2⟩
    · rw [he]
      exact ⟨by simp, by simp⟩
    · rw [he]
      refine ⟨by simp, fun hn => ⟨by simp, ?_⟩⟩
      rcases h4 with rfl | h4
      · rfl
      · obtain ⟨l, hl⟩ := Option.ne_none_iff_exists'.1 h4
        obtain ⟨l', e1, -⟩ := hnl l hl
        rw [hn] at e1
        cases e1

/-- **C71.** As long as no call was answered with `stuck`, `Noise_XK_session_get_status` is what the number of successful
calls determines: whose turn it is in the handshake, and after three calls transport. Missing: C71_status_violated. -/
theorem C71_status_partial {r : Role} {x : Live} (hx : Created r x) (us : List Use) (hb : ¬ broken x us) :
    getStatus (live x us).sn = turn r (done x us).length := by
  have h := lifeInv_run us (created (N := False) hx) (fun h => h.elim)
  simp only [List.nil_append, false_or] at h
  generalize live x us = y at h ⊢
  obtain ⟨⟨r', pid, st⟩, id, recv⟩ := y
  obtain ⟨h1, h2⟩ := h
  simp only at h1
  subst h1
  cases st with
  | transport t => simp [getStatus, turn, h2.1]
  | handshake s =>
    obtain ⟨h3, -, h4, -⟩ := h2
    have h5 : s.step = (done x us).length := by
      rcases h4 with h4 | h4
      · exact h4.1
      · exact absurd h4.2 hb
    generalize (done x us).length = n at h3 h5
    subst h5
    unfold getStatus turn
    have : s.step = 0 ∨ s.step = 1 ∨ s.step = 2 := by omega
    rcases this with h | h | h <;> cases r' <;> simp [h, writer]

/-- **C71.** The status is right about the next call: in the handshake only a call of the announced kind succeeds. -/
theorem C71_status_turn (x : Live) (u : Use) (hs : (use x u).1 = .success) :
    (getStatus x.sn = .handshakeWrite → u.isRead = false) ∧ (getStatus x.sn = .handshakeRead → u.isRead = true) := by
  obtain ⟨⟨r, pid, st⟩, id, recv⟩ := x
  cases st with
  | transport t => exact ⟨fun h => by simp [getStatus] at h, fun h => by simp [getStatus] at h⟩
  | handshake s =>
    cases u with
    | write em =>
      refine ⟨fun _ => rfl, fun h => ?_⟩
      rcases write_cases em r pid s with ⟨out, s', e, -, e2, e3, -⟩ | ⟨e, he, -⟩ | ⟨e, s', he, -⟩
      · exfalso
        have : s.step = 0 ∨ s.step = 1 ∨ s.step = 2 := by omega
        rcases this with h' | h' | h' <;> cases r <;> simp [h', writer] at e3 <;> simp [getStatus, h'] at h
      · simp [use, liveWrite, he] at hs
      · simp [use, liveWrite, he] at hs
    | read peers input =>
      refine ⟨fun h => ?_, fun _ => rfl⟩
      rcases read_cases peers input r pid s with ⟨out, s', pid', e, -, e2, -, e3, -⟩ | ⟨e, he, -⟩ | ⟨e, s', he, -⟩
      · exfalso
        have : s.step = 0 ∨ s.step = 1 ∨ s.step = 2 := by omega
        rcases this with h' | h' | h' <;> cases r <;> simp [h', writer] at e3 <;> simp [getStatus, h'] at h
      · simp [use, liveRead, he] at hs
      · simp [use, liveRead, he] at hs

/-- **C71**, violated: a session that a call has made unusable still reports that it waits for a message of the handshake
(the initiator for one to write, the responder for one to read), though every call fails. -/
theorem C71_status_violated {r : Role} {x : Live} (hx : Created r x) (us : List Use) (hb : broken x us) :
    (∀ u, ∃ e, (use (live x us) u).1 = .stuck e) ∧ getStatus (live x us).sn ≠ .transport ∧
    ∀ em, ∃ e, (use (live x (us ++ [.write em])) (.write em)).1 = .stuck e ∧
      getStatus (live x (us ++ [.write em])).sn = getStatus (live x us).sn := by
  have hlive : ∀ (us vs : List Use) (x : Live), live x (us ++ vs) = live (live x us) vs := by
    intro us
    induction us with
    | nil => exact fun _ _ => rfl
    | cons u us ih => exact fun vs x => ih vs _
  have h := lifeInv_run us (created (N := False) hx) (fun h => h.elim)
  simp only [List.nil_append, false_or] at h
  simp only [hlive, live]
  generalize live x us = y at h ⊢
  obtain ⟨⟨r', pid, st⟩, id, recv⟩ := y
  obtain ⟨h1, h2⟩ := h
  simp only at h1
  subst h1
  cases st with
  | transport t => exact absurd hb h2.2.2.1
  | handshake s =>
    obtain ⟨h3, -, h4, -⟩ := h2
    have h5 : s.step ≥ 4 := by
      rcases h4 with h4 | h4
      · exact absurd hb h4.2
      · exact h4.1
    have hw : ∀ em, sessionWrite em ⟨r', pid, .handshake s⟩ = (.stuck .incorrectTransition, none, ⟨r', pid, .handshake s⟩) := by
      intro em
      simp [sessionWrite, h5]
    refine ⟨fun u => ?_, ?_, fun em => ⟨.incorrectTransition, ?_, ?_⟩⟩
    · cases u with
      | write em => exact ⟨.incorrectTransition, by simp only [use, liveWrite, hw]⟩
      | read peers input => exact ⟨.incorrectTransition, by simp [use, liveRead, sessionRead, h5]⟩
    · cases r' <;> simp only [getStatus] <;> split <;> simp
    · simp only [use, liveWrite, hw]
    · simp only [use, liveWrite, hw]

/-- **C71.** `Noise_XK_session_reached_max_security` is true exactly when the handshake is over and, on the initiator's
side, a message of the responder has been read since. -/
theorem C71_max_security {r : Role} {x : Live} (hx : Created r x) (us : List Use) :
    reachedMaxSecurity (live x us) = true ↔ settled r (done x us) := by
  have h := lifeInv_run us (created (N := False) hx) (fun h => h.elim)
  simp only [List.nil_append, false_or] at h
  generalize live x us = y at h ⊢
  obtain ⟨⟨r', pid, st⟩, id, recv⟩ := y
  obtain ⟨h1, h2⟩ := h
  simp only at h1
  subst h1
  cases st with
  | transport t =>
    obtain ⟨h3, h4, -⟩ := h2
    simp only at h4
    cases r' with
    | initiator =>
      simp only [reachedMaxSecurity, settled, h4]
      simp [h3]
    | responder => simp [reachedMaxSecurity, settled, h3]
  | handshake s =>
    have : ¬ 3 ≤ (done x us).length := by
      have := h2.1
      omega
    cases r' <;> simp [reachedMaxSecurity, settled, this]

/-- **C71.** Once reached, the maximum stays, whatever calls follow. -/
theorem C71_max_security_stays {r : Role} {x : Live} (hx : Created r x) (us vs : List Use)
    (h : reachedMaxSecurity (live x us) = true) : reachedMaxSecurity (live x (us ++ vs)) = true := by
  have hd : ∀ (us : List Use) (x : Live), ∃ l, done x (us ++ vs) = done x us ++ l := by
    intro us
    induction us with
    | nil => exact fun x => ⟨_, rfl⟩
    | cons u us ih =>
      intro x
      obtain ⟨l, hl⟩ := ih (use x u).2
      refine ⟨l, ?_⟩
      simp only [List.cons_append, done, hl]
      split <;> rfl
  rw [C71_max_security hx] at h ⊢
  obtain ⟨l, hl⟩ := hd us x
  rw [hl]
  refine ⟨by rw [List.length_append]; have := h.1; omega, fun hr => ?_⟩
  obtain ⟨u, hu, hi⟩ := h.2 hr
  exact ⟨u, by rw [List.drop_append_of_le_length h.1]; exact List.mem_append_left _ hu, hi⟩

/-- **C71.** When the three messages are passed on unmodified, both sides report the same hash, the one of the Noise
specification, and the number of the session's peer. -/
theorem C71_hash {I R : Device} {pid : UInt32} {peer : Peer} (hp : Paired I R pid peer) (ei er : B32)
    {em1 em2 em3 : Encap} (s1 : Sendable 0 em1) (s2 : Sendable 1 em2) (s3 : Sendable 2 em3) :
    ∃ o i r i1 i2 i3 r1 r2 r3, Spec.NoiseXK.handshake I.prologue ⟨I.spriv, I.spub⟩ ⟨ei, NoiseCrypto.xbase ei⟩
        ⟨R.spriv, R.spub⟩ ⟨er, NoiseCrypto.xbase er⟩ em1.msg em2.msg em3.msg = some o ∧
      (liveInitiator I pid ei).1 = some i ∧ (liveResponder R er).1 = some r ∧
      liveWrite em1 i = (.success, some o.m1, i1) ∧ liveRead R.peers r o.m1 = (.success, some ⟨.auth 0, em1.msg⟩, r1) ∧
      liveWrite em2 r1 = (.success, some o.m2, r2) ∧ liveRead I.peers i1 o.m2 = (.success, some ⟨.auth 2, em2.msg⟩, i2) ∧
      liveWrite em3 i2 = (.success, some o.m3, i3) ∧ liveRead R.peers r2 o.m3 = (.success, some ⟨.auth 2, em3.msg⟩, r3) ∧
      (getHash i3.sn).toList = o.h ∧ (getHash r3.sn).toList = o.h ∧ getPeerId i3 = pid ∧ getPeerId r3 = peer.id ∧
      reachedMaxSecurity i3 = false ∧ reachedMaxSecurity r3 = true := by
  obtain ⟨o, ho, i0, r0, c1, c2, c3, c4, c5, hh, c6, c7⟩ := C59_conforms hp ei er s1 s2 s3
  obtain ⟨i0', r0', i1, r1, r2, i2, i3, r3, m1, m2, m3, a1, a2, a3, a4, a5, a6, a7, a8, -, -, -, hc, hpr, -, hpi⟩ :=
    C54_handshake hp ei er s1 s2 s3
  rw [c1] at a1
  rw [c2] at a2
  cases a1
  cases a2
  rw [a3] at c3 c5 c7
  cases c3
  rw [a4] at c4
  dsimp only at c4 c5 c7
  rw [a5] at c4
  cases c4
  rw [a6] at c5 c7
  dsimp only at c5 c7
  rw [a7] at c5 c7
  cases c5
  obtain ⟨ti, tr, -, -, q3, q4, -, -, q5, -⟩ := hc
  have hw : ∀ {em : Encap} {x : Live} {rc o sn'}, sessionWrite em x.sn = (rc, o, sn') →
      ∃ b, liveWrite em x = (rc, o, ⟨sn', x.id, b⟩) := fun h => by
    simp only [liveWrite, h]
    exact ⟨_, rfl⟩
  have hr : ∀ {ps : List Peer} {m : Bytes} {x : Live} {rc o sn'}, sessionRead ps x.sn m = (rc, o, sn') →
      ∃ b, liveRead ps x m = (rc, o, ⟨sn', x.id, b⟩) := fun h => by
    simp only [liveRead, h]
    exact ⟨_, rfl⟩
  obtain ⟨b1, d1⟩ := hw (x := ⟨i0, I.statesCounter, false⟩) a3
  obtain ⟨b2, d2⟩ := hr (x := ⟨r0, R.statesCounter, false⟩) a4
  obtain ⟨b3, d3⟩ := hw (x := ⟨r1, R.statesCounter, b2⟩) a5
  obtain ⟨b4, d4⟩ := hr (x := ⟨i1, I.statesCounter, b1⟩) a6
  obtain ⟨b5, d5⟩ := hw (x := ⟨i2, I.statesCounter, b4⟩) a7
  obtain ⟨b6, d6⟩ := hr (x := ⟨r2, R.statesCounter, b3⟩) a8
  have ci : (liveInitiator I pid ei).1 = some ⟨i0, I.statesCounter, false⟩ := by simp [liveInitiator, c1]
  have cr : (liveResponder R er).1 = some ⟨r0, R.statesCounter, false⟩ := by simp [liveResponder, c2]
  have mi := C71_max_security (r := .initiator) (.inl ⟨I, pid, ei, rfl, ci⟩)
    [.write em1, .read I.peers o.m2, .write em3]
  have mr := C71_max_security (r := .responder) (.inr ⟨R, er, rfl, cr⟩)
    [.read R.peers o.m1, .write em2, .read R.peers o.m3]
  simp only [live, done, use, d1, d2, d3, d4, d5, d6, if_true, settled] at mi mr
  refine ⟨o, _, _, _, _, _, _, _, _, ho, ci, cr, d1, d2, d3, d4, d5, d6, ?_, ?_, hpi, hpr, ?_, ?_⟩
  · simp only [getHash]
    rw [c7]
    exact c6
  · rw [q3] at c7
    cases c7
    simp only [getHash, q4]
    rw [← q5]
    exact c6
  · simpa using mi
  · simpa using mr

/-- **C71.** The number of the peer is 0 in a responder's session until the handshake is over, and not 0 afterwards. -/
theorem C71_peer_id {x : Live} (hx : Created .responder x) (us : List Use)
    (hn : ∀ ps m, Use.read ps m ∈ us → ∀ p ∈ ps, p.id ≠ 0) :
    getPeerId (live x us) = 0 ↔ (done x us).length < 3 := by
  have h := lifeInv_run us (created (N := True) hx) (fun _ u hu => by
    cases u with
    | write em => trivial
    | read ps m => exact hn ps m hu)
  simp only [List.nil_append, false_or] at h
  generalize live x us = y at h ⊢
  obtain ⟨⟨r', pid, st⟩, id, recv⟩ := y
  obtain ⟨h1, h2⟩ := h
  simp only at h1
  subst h1
  cases st with
  | transport t => simp [getPeerId, h2.1, h2.2.2.2 trivial rfl]
  | handshake s =>
    have h3 : pid = 0 := h2.2.2.2 rfl
    simp [getPeerId, h2.1, h3]

/-- **C71.** Sessions of a device have different numbers, none of them 0. -/
theorem C71_ids (prologue : Bytes) (spriv : B32) (us : List DeviceUse) :
    ((sessions us (deviceCreate prologue spriv)).map getId).Nodup ∧
      ∀ x ∈ sessions us (deviceCreate prologue spriv), getId x ≠ 0 := by
  obtain ⟨h1, h2⟩ := sessions_ids us (deviceCreate prologue spriv)
  refine ⟨List.Pairwise.imp (R := (· < ·)) (fun {a b} (h : a < b) (he : a = b) => UInt32.lt_irrefl b (he ▸ h)) h1, fun x hx h0 => ?_⟩
  have h3 := h2 x hx
  rw [show x.id = 0 from h0] at h3
  exact absurd h3 (by change ¬ ((1 : UInt32) ≤ 0); decide)

end

section
attribute [local instance] Toy.hashes Toy.noise

/-- An initiator's session -/
def exLive : Live := ⟨⟨.initiator, 1, .handshake ⟨0, zero32, h0, mixHash (mixHash h0 [1, 2, 3]) (B32.ofNat 7).toList,
  B32.ofNat 5, B32.ofNat 5, B32.ofNat 9, B32.ofNat 9, B32.ofNat 7, zero32⟩⟩, 1, false⟩

theorem exCreated : Created .initiator exLive := .inl ⟨exI, 1, B32.ofNat 9, rfl, rfl⟩


/-- The devices of the example: the initiator writes, reads, writes and then reads a message in transport state. -/
def exUses : List Use :=
  [.write ⟨.conf 2, [1]⟩, .write ⟨.conf 7, [1]⟩, .read [] ((B32.ofNat 11).toList ++ List.replicate 16 0), .write ⟨.conf 5, [4]⟩,
   .read [] [1, 2], .read [] ([5] ++ List.replicate 16 0)]

example := C71_length exLive.sn ⟨.conf 2, [1]⟩ (by decide)
example : ∃ out sn', sessionWrite ⟨.conf 2, [1]⟩ exLive.sn = (.success, some out, sn') := ⟨_, _, rfl⟩
instance (r : RCode) : Decidable (∃ e, r = .stuck e) :=
  match r with
  | .stuck e => .isTrue ⟨e, rfl⟩
  | .success => .isFalse (by rintro ⟨e, h⟩; cases h)
  | .error _ => .isFalse (by rintro ⟨e, h⟩; cases h)

theorem exNotBroken : ¬ broken exLive exUses := by simp only [broken, exUses]; decide +kernel
example := C71_status_partial exCreated exUses exNotBroken
example : (done exLive exUses).length = 4 := by decide
example := C71_max_security exCreated exUses
example : reachedMaxSecurity (live exLive exUses) = true := by decide
example : reachedMaxSecurity (live exLive (exUses.take 5)) = false := by decide
example : broken exLive [.write ⟨.conf 2, [1]⟩, .write ⟨.conf 0, []⟩] := by simp only [broken]; exact .inr (.inl ⟨_, rfl⟩)
example : getStatus (live exLive [.write ⟨.conf 2, [1]⟩, .write ⟨.conf 0, []⟩]).sn = .handshakeWrite := by decide
example := C71_hash exPaired (B32.ofNat 9) (B32.ofNat 11) (em1 := ⟨.conf 2, [1]⟩) (em2 := ⟨.conf 1, [2, 3]⟩)
  (em3 := ⟨.conf 5, [4]⟩) ⟨by decide, .inr ⟨2, rfl, by decide⟩⟩
  ⟨by decide, .inr ⟨1, rfl, by decide⟩⟩ ⟨by decide, .inr ⟨5, rfl, by decide⟩⟩
example : (sessions [.responder (B32.ofNat 3), .initiator 1 (B32.ofNat 4), .initiator 2 (B32.ofNat 4), .peers [], .initiator 1 zero32,
    .responder zero32] exI).map getId = [1, 2, 3] := by decide

end

end Verif.Props
