import Verif.Proofs.TpNext
import Verif.Proofs.PeerNext

/-!
# The transcript of the trusted party
-/

set_option linter.unusedSectionVars false

namespace Verif.TpDkg

open H Wire Spec.Wire

variable [Signing] [Hashes] (G : Type) [Ristretto G] [NoiseCrypto] [Mac]

/-- A call leaves the transcript or, in the steps with a broadcast, extends it. -/
theorem transcript_tpHandler {clock : ℕ → UInt64} {log : Bool} {scratch : B32} {input : Bytes} (s : Run)
    (h1 : s.ctx.step ≠ 1) (h4 : s.ctx.step ≠ 4) (h6 : s.ctx.step ≠ 6) :
    Wp (tpHandler G clock log scratch input s.ctx.step) True (fun _ s' => s'.ctx.transcript = s.ctx.transcript)
      (fun _ s' => s'.ctx.transcript = s.ctx.transcript) s := by
  have F : Frame (fun _ => True) (Same fun c => c.transcript) := same_frame (fun _ _ _ => rfl) (fun _ _ => rfl)
  have e : ∀ {m : H Run Int} {V : Int → Prop},
      Wp m True (fun _ s' => Same (fun c => c.transcript) s s') (fun a s' => Same (fun c => c.transcript) s s' ∧ V a) s →
      Wp m True (fun _ s' => s'.ctx.transcript = s.ctx.transcript) (fun _ s' => s'.ctx.transcript = s.ctx.transcript) s :=
    fun h => h.mono id (fun _ _ h => h) fun _ _ h => h.1
  unfold tpHandler
  split
  · exact e (pres_tp1 F _ _ _ s)
  · exact absurd ‹_› h1
  · exact e (pres_tp68 F s (fun _ _ _ _ _ _ _ => trivial))
  · exact e (pres_tp68 F s (fun _ _ _ _ _ _ _ => trivial))
  · exact absurd ‹_› h4
  · exact e (pres_tp14 F (fun _ _ _ _ _ _ _ => trivial) (fun _ _ _ => rfl) s)
  · exact absurd ‹_› h6
  · exact e (pres_tp18 F G (fun _ _ _ _ => trivial) (fun _ _ _ _ _ => trivial) (fun _ _ _ => trivial)
      (fun _ => rfl) s)
  · exact e (pres_tp20 F (fun _ _ _ _ _ => trivial) (fun _ _ _ => trivial) (fun _ => rfl) s)
  · exact e (pres_tp22 F (fun _ _ _ _ _ => trivial) s)
  · rfl

/-- After a successful call the transcript has been extended by the output if the step has a broadcast, and is else
unchanged. -/
theorem tpNext_transcript {clock : ℕ → UInt64} {log : Bool} {scratch : B32} {c c' : TP} {input out o : Bytes}
    (g : Good c) (h : tpNext G clock log scratch c input out = .ok (0, c', o)) :
    c'.transcript = if hears c.step then updateTranscript c.transcript o else c.transcript := by
  have h9 : c.step ≤ 9 := by
    by_contra hc
    rw [tpNext_ended G (by omega)] at h
    cases h
  obtain ⟨hil, hol⟩ := tpNext_lengths G g h9 h (by decide) (by decide)
  by_cases hb : c.step = 1 ∨ c.step = 4 ∨ c.step = 6
  · have hh : hears c.step = true := by rcases hb with h | h | h <;> rw [h] <;> rfl
    rw [hh, if_pos rfl]
    rcases hb with h1 | h1 | h1
    · have e : tpHandler G clock log scratch input c.step = tp4 clock log input := by rw [h1]; rfl
      simp only [h1, show (1 : ℕ) ≠ 7 by decide, if_false, inputOf, tpOutputSize] at hil hol
      have hw := wp_tp4 (clock := clock) (log := log) (input := input) (s := ⟨c, out, 0, 0, []⟩) g.wf
        (by rw [hil]) (by show out.length = _; rw [hol]; simp only [msg2Size, hdrSize])
      rw [← e] at hw
      obtain ⟨s, hE | hQ, rfl, rfl⟩ := tpNext_elim G h9 hw h
      · exact absurd rfl hE.1
      · exact hQ.2.2.2.2.2.2
    · have e : tpHandler G clock log scratch input c.step = tp12 clock log input := by rw [h1]; rfl
      simp only [h1, show (4 : ℕ) ≠ 7 by decide, if_false, inputOf, tpOutputSize] at hil hol
      have hw := wp_tp12 (clock := clock) (log := log) (input := input) (s := ⟨c, out, 0, 0, []⟩) g.wf
        rfl (by rw [hil]; simp only [msg6Size, hdrSize])
        (by show out.length = _; rw [hol, hil]; simp only [hdrSize, msg6Size])
      rw [← e] at hw
      obtain ⟨s, hE | hQ, rfl, rfl⟩ := tpNext_elim G h9 hw h
      · exact absurd rfl hE.1
      · exact hQ.2.2.2.2.2.1
    · have e : tpHandler G clock log scratch input c.step = tp16 clock log input := by rw [h1]; rfl
      simp only [h1, show (6 : ℕ) ≠ 7 by decide, if_false, inputOf, tpOutputSize] at hil hol
      have hw := wp_tp16 (clock := clock) (log := log) (input := input) (s := ⟨c, out, 0, 0, []⟩) g.wf
        rfl (by rw [hil]; simp only [msg9Size, hdrSize]; ring) (by show out.length = _; rw [hol])
      rw [← e] at hw
      obtain ⟨s, hE | hQ, rfl, rfl⟩ := tpNext_elim G h9 hw h
      · exact absurd rfl hE.1
      · exact hQ.2.2.2.2.2.2.2.1
  · have hh : hears c.step = false := by
      unfold hears
      simp only [Bool.or_eq_false_iff, beq_eq_false_iff_ne]
      omega
    rw [hh, if_neg (by decide)]
    rw [not_or, not_or] at hb
    obtain ⟨s, hs, rfl, rfl⟩ := tpNext_elim G h9 (transcript_tpHandler G ⟨c, out, 0, 0, []⟩ hb.1 hb.2.1 hb.2.2) h
    exact hs.elim id id

end Verif.TpDkg
