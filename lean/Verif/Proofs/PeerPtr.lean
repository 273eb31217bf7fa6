import Verif.Proofs.PeerStep
import Verif.Proofs.Noise

/-!
# The pointers to Noise sessions
-/

set_option linter.unusedSectionVars false

namespace Verif

namespace Noise

variable [Hashes] [NoiseCrypto]

/-- The session has finished its handshake. -/
def Session.IsTransport (sn : Session) : Prop := ∃ t, sn.st = .transport t

theorem isTransport_write {em : Encap} {sn : Session} (h : sn.IsTransport) : (sessionWrite em sn).2.2.IsTransport := by
  obtain ⟨r, pid, st⟩ := sn
  obtain ⟨t, ht⟩ := h
  dsimp only at ht
  subst ht
  rcases write_transport em r pid t with h | ⟨e, h⟩
  · rw [h.1]; exact ⟨_, rfl⟩
  · rw [h]; exact ⟨_, rfl⟩

theorem isTransport_read {peers : List Peer} {input : Bytes} {sn : Session} (h : sn.IsTransport) :
    (sessionRead peers sn input).2.2.IsTransport := by
  obtain ⟨r, pid, st⟩ := sn
  obtain ⟨t, ht⟩ := h
  dsimp only at ht
  subst ht
  obtain ⟨t', h, -⟩ := read_transport_keeps peers input r pid t
  rw [h]; exact ⟨_, rfl⟩

/-- Only the last message of the handshake has 64 bytes more than its payload. -/
theorem handshakeWrite_last {r : Role} {pid : UInt32} {s : HS} {m out : Bytes} {sn' : Session} {l : ℕ}
    (h : handshakeWrite ⟨r, pid, .handshake s⟩ m l = (.ok out, sn')) (hl : out.length = m.length + 64) :
    sn'.IsTransport := by
  unfold handshakeWrite at h
  dsimp only at h
  split at h
  · cases h
  rename_i out' s' hr
  simp only [Prod.mk.injEq, Except.ok.injEq] at h
  obtain ⟨rfl, rfl⟩ := h
  by_cases h2 : s.step = 2
  · rw [if_pos h2]; exact ⟨_, rfl⟩
  exfalso
  split at hr
  · simp at hr
  cases r with
  | initiator =>
    dsimp only at hr
    split at hr
    · simp at hr
    split at hr
    · unfold initWrite0 at hr
      dsimp only at hr
      split at hr
      · simp at hr
      split at hr
      · simp at hr
      · simp only [Prod.mk.injEq, Except.ok.injEq] at hr
        obtain ⟨rfl, -⟩ := hr
        rw [List.length_append, NoiseCrypto.enc_length] at hl
        simp at hl
        omega
    · omega
  | responder =>
    dsimp only at hr
    split at hr
    · simp at hr
    unfold respWrite1 at hr
    dsimp only at hr
    split at hr
    · simp at hr
    split at hr
    · simp at hr
    · simp only [Prod.mk.injEq, Except.ok.injEq] at hr
      obtain ⟨rfl, -⟩ := hr
      rw [List.length_append, NoiseCrypto.enc_length] at hl
      simp at hl
      omega

theorem sessionWrite_last {conf : ℕ} {sn sn' : Session} {m : Bytes}
    (h : sessionWrite (pack conf []) sn = (.success, some m, sn')) (hl : m.length = 64) : sn'.IsTransport := by
  obtain ⟨r, pid, st⟩ := sn
  cases st with
  | transport t =>
    have := isTransport_write (em := pack conf []) (sn := ⟨r, pid, .transport t⟩) ⟨t, rfl⟩
    rw [h] at this
    exact this
  | handshake s =>
    unfold sessionWrite at h
    dsimp only at h
    generalize (if s.step = 0 then 2 else if s.step = 1 then 1 else 5) = cl at h
    split at h
    · cases h
    split at h
    · cases h
    split at h
    · split at h
      · rename_i he
        simp only [Prod.mk.injEq, Option.some.injEq, true_and] at h
        obtain ⟨rfl, rfl⟩ := h
        exact handshakeWrite_last he (by rw [hl]; rfl)
      · cases h
    · cases h

/-- The payload of a handshake message other than the last is 48 bytes shorter. -/
theorem handshakeRead_length {peers : List Peer} {r : Role} {pid : UInt32} {s : HS} {m out : Bytes} {sn' : Session} {l : ℕ}
    (h : handshakeRead peers ⟨r, pid, .handshake s⟩ m l = (.ok out, sn')) (h2 : s.step ≠ 2) :
    out.length + 48 = m.length := by
  unfold handshakeRead at h
  dsimp only at h
  split at h
  · cases h
  rename_i out' pid' s' hr
  simp only [Prod.mk.injEq, Except.ok.injEq] at h
  obtain ⟨rfl, rfl⟩ := h
  have key : ∀ {k : B32} {n : UInt64} {h : B64} {p : Bytes} {h' : B64}, 32 ≤ m.length →
      decryptAndHash k n h (m.drop 32) = some (p, h') → p.length + 48 = m.length := by
    intro k n h p h' h32 hd
    unfold decryptAndHash at hd
    split at hd
    · cases hd
    · rename_i p' hp
      simp only [Option.some.injEq, Prod.mk.injEq] at hd
      obtain ⟨rfl, -⟩ := hd
      have := NoiseCrypto.dec_length _ _ _ _ _ hp
      rw [List.length_drop] at this
      omega
  split at hr
  · simp at hr
  cases r with
  | initiator =>
    dsimp only at hr
    split at hr
    · simp at hr
    split at hr
    · simp at hr
    · rename_i hp
      simp only [Prod.mk.injEq, Except.ok.injEq] at hr
      obtain ⟨⟨rfl, -⟩, -⟩ := hr
      unfold initRead1 at hp
      dsimp only at hp
      split at hp
      · simp at hp
      split at hp
      · simp at hp
      split at hp
      · simp at hp
      · rename_i hd
        simp only [Prod.mk.injEq, Except.ok.injEq] at hp
        obtain ⟨rfl, -⟩ := hp
        exact key (by omega) hd
  | responder =>
    dsimp only at hr
    split at hr
    · simp at hr
    split at hr
    · split at hr
      · simp at hr
      · rename_i hp
        simp only [Prod.mk.injEq, Except.ok.injEq] at hr
        obtain ⟨⟨rfl, -⟩, -⟩ := hr
        unfold respRead0 at hp
        dsimp only at hp
        split at hp
        · simp at hp
        split at hp
        · simp at hp
        split at hp
        · simp at hp
        · rename_i hd
          simp only [Prod.mk.injEq, Except.ok.injEq] at hp
          obtain ⟨rfl, -⟩ := hp
          exact key (by omega) hd
    · omega

theorem handshakeRead_last {peers : List Peer} {r : Role} {pid : UInt32} {s : HS} {m out : Bytes} {sn' : Session} {l : ℕ}
    (h : handshakeRead peers ⟨r, pid, .handshake s⟩ m l = (.ok out, sn')) (hl : m.length = out.length + 64) :
    sn'.IsTransport := by
  by_cases h2 : s.step = 2
  · unfold handshakeRead at h
    dsimp only at h
    split at h
    · cases h
    · simp only [Prod.mk.injEq, Except.ok.injEq] at h
      obtain ⟨-, rfl⟩ := h
      rw [if_pos h2]; exact ⟨_, rfl⟩
  · have := handshakeRead_length h h2
    omega

theorem sessionRead_last {peers : List Peer} {sn sn' : Session} {input : Bytes} {em : Encap}
    (h : sessionRead peers sn input = (.success, some em, sn')) (hl : input.length = em.msg.length + 64) :
    sn'.IsTransport := by
  obtain ⟨r, pid, st⟩ := sn
  cases st with
  | transport t =>
    have := isTransport_read (peers := peers) (input := input) (sn := ⟨r, pid, .transport t⟩) ⟨t, rfl⟩
    rw [h] at this
    exact this
  | handshake s =>
    unfold sessionRead at h
    dsimp only at h
    split at h
    · simp at h
    split at h
    · split at h
      · simp at h
      · split at h
        · rename_i he
          simp only [Prod.mk.injEq, Option.some.injEq, true_and] at h
          obtain ⟨rfl, rfl⟩ := h
          exact handshakeRead_last he hl
        · simp at h
    · simp at h

end Noise

namespace TpDkg

open Noise

/-- NULL or a valid pointer. -/
def Ptr.Usable {α : Type} (p : Ptr α) : Prop := p ≠ .uninit ∧ p ≠ .freed

/-- A valid pointer to a session that has finished its handshake. -/
def Ptr.Finished (p : Ptr Session) : Prop := ∃ sn, p = .live sn ∧ sn.IsTransport

theorem Ptr.Finished.usable {p : Ptr Session} (h : p.Finished) : p.Usable := by
  obtain ⟨sn, rfl, -⟩ := h
  exact ⟨by simp, by simp⟩

theorem Ptr.Usable.cases {α : Type} {p : Ptr α} (h : p.Usable) : p = .null ∨ ∃ a, p = .live a := by
  cases p with
  | uninit => exact absurd rfl h.1
  | null => exact .inl rfl
  | live a => exact .inr ⟨a, rfl⟩
  | freed => exact absurd rfl h.2

theorem usable_null {α : Type} : (Ptr.null : Ptr α).Usable := ⟨by simp, by simp⟩
theorem usable_live {α : Type} {a : α} : (Ptr.live a).Usable := ⟨by simp, by simp⟩

variable [Hashes] [NoiseCrypto]

theorem initNoise_slot {dv : Device} {slot : Ptr Session} {rpk epriv : B32} (h : slot ≠ .uninit) :
    (initNoise dv slot rpk epriv).2.2.1 ≠ .uninit := by
  unfold initNoise
  split
  · exact h
  split
  · simp
  split
  dsimp only
  split
  · simp
  split <;> simp

theorem respondNoise_slot {dv : Device} {m : Bytes} {epriv : B32} : (respondNoise dv m epriv).2.2.1 ≠ .uninit := by
  unfold respondNoise
  split
  · simp
  split
  split
  · simp
  split
  · simp
  split
  dsimp only
  split
  · simp
  split <;> simp

theorem finishNoise_ok {log : Bool} {dv : Device} {slot : Ptr Session} {m : Bytes} (h : slot.Usable) :
    ∃ r slot', finishNoise log dv slot m = .ok (r, slot') ∧ slot' ≠ .uninit := by
  rcases h.cases with rfl | ⟨sn, rfl⟩
  · exact ⟨_, _, rfl, by simp⟩
  · unfold finishNoise
    simp only [Ptr.deref, C.ok_bind]
    split
    · exact ⟨_, _, rfl, by simp⟩
    split
    · exact ⟨_, _, rfl, by simp⟩
    split
    · exact ⟨_, _, rfl, by simp⟩
    · exact ⟨_, _, rfl, by simp⟩

theorem encryptNoise_ok {slot : Ptr Session} {p : Bytes} {l : ℕ} (h : slot.Usable) :
    ∃ r slot' o, encryptNoise slot p l = .ok (r, slot', o) ∧ slot'.Usable ∧ (slot.Finished → slot'.Finished) ∧
      (r = 0 → ∃ m, o = some m) ∧ (r = 0 → p = [] → l = 64 → slot'.Finished) := by
  rcases h.cases with rfl | ⟨sn, rfl⟩
  · exact ⟨_, _, _, rfl, usable_null, id, fun h => absurd h (by decide), fun h => absurd h (by decide)⟩
  · rcases hw : sessionWrite (pack 5 p) sn with ⟨rc, out, sn'⟩
    unfold encryptNoise
    simp only [Ptr.deref, C.ok_bind, hw]
    split
    · exact ⟨_, _, _, rfl, usable_live, id, fun h => absurd h (by decide), fun h => absurd h (by decide)⟩
    have hf : (Ptr.live sn).Finished → (sessionWrite (pack 5 p) sn).2.2.IsTransport := by
      rintro ⟨sn', h1, h2⟩
      cases h1
      exact isTransport_write h2
    rw [hw] at hf
    split
    · exact ⟨_, _, _, rfl, usable_live, fun h => ⟨_, rfl, hf h⟩, fun h => absurd h (by decide),
        fun h => absurd h (by decide)⟩
    split
    · exact ⟨_, _, _, rfl, usable_live, fun h => ⟨_, rfl, hf h⟩, fun h => absurd h (by decide),
        fun h => absurd h (by decide)⟩
    · rename_i hs hm
      refine ⟨_, _, _, rfl, usable_live, fun h => ⟨_, rfl, hf h⟩, fun _ => ⟨_, rfl⟩, fun _ hp hl => ⟨_, rfl, ?_⟩⟩
      subst hp
      have hrc : rc = .success := by
        cases rc <;> simp_all [RCode.isSuccess]
      subst hrc
      cases out with
      | none => rw [hl] at hm; simp at hm
      | some m =>
        simp only [Option.getD_some, not_not] at hm
        exact sessionWrite_last hw (hm.trans hl)

theorem decryptNoise_ok {dv : Device} {slot : Ptr Session} {p : Bytes} {l : ℕ} (h : slot.Usable) :
    ∃ r slot' o, decryptNoise dv slot p l = .ok (r, slot', o) ∧ slot'.Usable ∧ (slot.Finished → slot'.Finished) ∧
      (r = 0 → p.length = l + 64 → slot'.Finished) := by
  rcases h.cases with rfl | ⟨sn, rfl⟩
  · exact ⟨_, _, _, rfl, usable_null, id, fun h => absurd h (by decide)⟩
  · rcases hw : sessionRead dv.peers sn p with ⟨rc, out, sn'⟩
    unfold decryptNoise
    simp only [Ptr.deref, C.ok_bind, hw]
    split
    · exact ⟨_, _, _, rfl, usable_live, id, fun h => absurd h (by decide)⟩
    have hf : (Ptr.live sn).Finished → (sessionRead dv.peers sn p).2.2.IsTransport := by
      rintro ⟨sn', h1, h2⟩
      cases h1
      exact isTransport_read h2
    rw [hw] at hf
    split
    · exact ⟨_, _, _, rfl, usable_live, fun h => ⟨_, rfl, hf h⟩, fun h => absurd h (by decide)⟩
    split
    · exact ⟨_, _, _, rfl, usable_live, fun h => ⟨_, rfl, hf h⟩, fun h => absurd h (by decide)⟩
    rename_i hs m hm
    split
    · exact ⟨_, _, _, rfl, usable_live, fun h => ⟨_, rfl, hf h⟩, fun h => absurd h (by decide)⟩
    · rename_i hl
      refine ⟨_, _, _, rfl, usable_live, fun h => ⟨_, rfl, hf h⟩, fun _ hp => ⟨_, rfl, ?_⟩⟩
      have hrc : rc = .success := by
        cases rc <;> simp_all [RCode.isSuccess]
      subst hrc
      cases out with
      | none => simp at hm
      | some em =>
        have he : em.msg = m := by
          rw [Option.bind_some] at hm
          unfold unpack at hm
          dsimp only at hm
          rw [Option.ite_none_right_eq_some] at hm
          exact Option.some.inj hm.2
        refine sessionRead_last hw ?_
        rw [he, hp]
        simp only [not_not] at hl
        rw [hl]

theorem keyAt_ok {slot : Ptr Session} (h : slot.Finished) : ∃ k, keyAt slot = .ok k := by
  obtain ⟨⟨r, pid, st⟩, rfl, t, ht⟩ := h
  dsimp only at ht
  subst ht
  cases r
  · exact ⟨_, rfl⟩
  · exact ⟨_, rfl⟩

end TpDkg

end Verif
