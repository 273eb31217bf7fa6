import Verif.Model.Peer
import Verif.Props.Noise
import Verif.Proofs.TpToy

/-!
# How the peers use the Noise sessions: C61 for the shares
-/

set_option linter.unusedSectionVars false

namespace Verif.Props

open TpDkg Noise

section
variable [Signing] [Hashes] [NoiseCrypto] [Mac]

/-- C61: a non-empty text that a peer takes from a session has the length asked for and was read in a state whose
messages are authenticated, that is, not as the first message of a handshake. -/
theorem C61_decrypted {dv : Device} {slot slot' : Ptr Session} {input m : Bytes} {len : ℕ}
    (h : decryptNoise dv slot input len = .ok (0, slot', some m)) :
    ∃ sn, slot = .live sn ∧ m.length = len ∧ (m ≠ [] → ¬ ∃ s, sn.st = .handshake s ∧ s.step = 0) := by
  unfold decryptNoise at h
  rw [C.bind_eq_ok] at h
  obtain ⟨o, ho, h⟩ := h
  cases slot with
  | uninit => cases ho
  | freed => cases ho
  | null => cases ho; simp at h
  | live sn =>
    cases ho
    refine ⟨sn, rfl, ?_⟩
    dsimp only at h
    split at h
    · simp at h
    · rcases hr : sessionRead dv.peers sn input with ⟨rc, em, sn'⟩
      rw [hr] at h
      dsimp only at h
      cases rc with
      | success =>
        rw [if_neg (by simp [RCode.isSuccess])] at h
        cases em with
        | none => simp at h
        | some em =>
          simp only [Option.bind_some] at h
          have ha := C61_authentication hr 2
          split at h
          · simp at h
          · rename_i m' hm
            split at h
            · simp at h
            · rename_i hl
              simp only [C.ok.injEq, Prod.mk.injEq, Option.some.injEq, true_and] at h
              obtain ⟨-, rfl⟩ := h
              refine ⟨not_not.mp hl, fun hne h0 => ?_⟩
              obtain ⟨l, hl, h2⟩ := (ha.2.2.1 _ hm).2 hne
              rw [ha.1 h0] at hl
              cases hl
              omega
      | error e => simp [RCode.isSuccess] at h
      | stuck e => simp [RCode.isSuccess] at h

/-- C61: a non-empty text that a peer encrypts leaves it only as the last message of a handshake or in transport state,
which is where the recipient is known and the keys are forward secret. -/
theorem C61_encrypted {slot slot' : Ptr Session} {input m : Bytes} {len : ℕ} (hne : input ≠ [])
    (h : encryptNoise slot input len = .ok (0, slot', some m)) :
    ∃ sn, slot = .live sn ∧ m.length = len ∧
      ((∃ t, sn.st = .transport t) ∨ ∃ s, sn.st = .handshake s ∧ s.step = 2) := by
  unfold encryptNoise at h
  rw [C.bind_eq_ok] at h
  obtain ⟨o, ho, h⟩ := h
  cases slot with
  | uninit => cases ho
  | freed => cases ho
  | null => cases ho; simp at h
  | live sn =>
    cases ho
    refine ⟨sn, rfl, ?_⟩
    dsimp only at h
    split at h
    · simp at h
    · have hw := fun step hst hl => C61_confidentiality (sn := sn) (step := step) hst (em := pack 5 input) hne hl
      rcases hr : sessionWrite (pack 5 input) sn with ⟨rc, out, sn'⟩
      rw [hr] at h hw
      dsimp only at h hw
      cases rc with
      | success =>
        rw [if_neg (by simp [RCode.isSuccess])] at h
        split at h
        · simp at h
        · rename_i hl
          simp only [C.ok.injEq, Prod.mk.injEq, Option.some.injEq, true_and] at h
          obtain ⟨-, rfl⟩ := h
          refine ⟨not_not.mp hl, ?_⟩
          rcases hst : sn.st with s | t
          · right
            refine ⟨s, rfl, ?_⟩
            by_cases h3 : s.step < 2
            · exfalso
              have := (hw s.step (.inl ⟨s, hst, rfl, by omega⟩) (by
                intro l hl
                cases hl
                rcases (by omega : s.step = 0 ∨ s.step = 1) with h | h <;> rw [h] <;> decide)).1
              simp [RCode.isSuccess] at this
            · unfold sessionWrite at hr
              rw [hst] at hr
              dsimp only at hr
              split at hr
              · simp at hr
              · by_contra h2
                have : s.step = 3 := by omega
                rw [this] at hr
                simp [nextLen] at hr
          · exact .inl ⟨t, rfl⟩
      | error e => simp [RCode.isSuccess] at h
      | stuck e => simp [RCode.isSuccess] at h

end

/-! ### The hypotheses can be met -/

section
attribute [local instance] Toy.hashes Toy.signing Toy.noise Toy.mac

example := C61_encrypted (slot := .live ⟨.initiator, 1, .transport (exT 3 4)⟩) (input := [7, 8]) (len := 18)
  (by decide) rfl
example := C61_decrypted (dv := exI) (slot := .live ⟨.initiator, 1, .transport (exT 3 4)⟩)
  (input := [7, 8] ++ List.replicate 16 0) (len := 2) rfl

end

end Verif.Props
