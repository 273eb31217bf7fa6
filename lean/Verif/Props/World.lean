import Verif.Proofs.WorldToy

/-!
# A peer that follows the protocol is not blamed
-/

set_option linter.unusedSectionVars false

namespace Verif.Props

open TpDkg Wire Spec.Wire Spec

section
variable [Signing] [Hashes] [NoiseCrypto] [Mac] (G : Type) [Ristretto G]
variable {t0 eps : UInt64} {clock : ℕ → UInt64} {i : ℕ} {d : Duo}

/-- The records that one call adds. -/
theorem call_blames {tpClock : ℕ → UInt64} {log : Bool} {scratch : B32} {input out o : Bytes} {r : Int} {c : TP}
    (hc : GoodClock t0.toNat eps clock) (h0 : 0 < t0.toNat) (hw : t0.toNat + 2 * eps.toNat < 2 ^ 64)
    (v : Duo.Inv G t0 eps clock i d) (h7 : d.tp.step ≠ 7) (hp : partOf d.tp input i = d.sent)
    (h : tpNext G tpClock log scratch d.tp input out = .ok (r, c, o)) :
    ∃ new, c.log = d.tp.log ++ new ∧ ∀ rec ∈ new, rec.peer ≠ idx i ∧ (cheaterMsg rec).1 ≠ idx i := by
  have b := v.base
  by_cases h9 : d.tp.step ≤ 9
  · by_cases hl : input.length = inputOf d.tp * d.tp.n.toNat
    · obtain ⟨new, hnew, -⟩ := C63_grounds G tpClock log scratch d.tp c input out o r h7 h
      exact ⟨new, hnew, C63_fine_not_reported G tpClock log scratch d.tp c input out o r h7 b.good.wf.n_le h i b.lt
        (v.fine G hc h0 hw h9 h7 hl hp) new hnew⟩
    · refine ⟨[], ?_, by simp⟩
      rw [List.append_nil]
      exact wrong_log G b.good h9 (by rw [if_neg h7]; exact hl) h
  · rw [tpNext_ended G (by omega)] at h
    cases h
    exact ⟨[], by simp, by simp⟩

/-- So far nobody has blamed the peer. -/
theorem reach_blames (hc : GoodClock t0.toNat eps clock) (h0 : 0 < t0.toNat) (hw : t0.toNat + 2 * eps.toNat < 2 ^ 64)
    (h : Duo.Reach G t0 eps clock i d) : ∀ rec ∈ d.tp.log, rec.peer ≠ idx i ∧ (cheaterMsg rec).1 ≠ idx i := by
  induction h with
  | start d h =>
    cases h with
    | mk ctx c now n t name sid seed msg0 m _ _ _ _ _ _ _ _ tp ctx' q now' eps' log ltSk _ _ _ _ _ _ _ _ _ _ p hi h1 h2 =>
      obtain ⟨-, -, -, -, e5, -⟩ := start_ok h1
      obtain ⟨cs, ts, -, -, -, -, rfl⟩ := setBufs_ok h2
      simp [TP.log, e5]
  | step d d' hr hs ih =>
    have v := reach_inv G hc h0 hw hr
    cases hs with
    | tp tpClock log scratch input out c o hp h =>
      have b := v.base
      have h7 := tpNext_not7 G b.good (by have := b.wf.t_pos; rw [b.t] at this; omega) h
      obtain ⟨new, e, hn⟩ := call_blames G hc h0 hw v h7 hp h
      intro rec hrec
      show rec.peer ≠ idx i ∧ _
      have hrec : rec ∈ c.log := hrec
      rw [e, List.mem_append] at hrec
      exact hrec.elim (ih rec) (hn rec)
    | peer a p o hin hr' h => exact ih

/-- **C69.** Suppose that one peer follows the protocol, its messages arrive unchanged, and its clock does not go back, is not
behind the start of the trusted party, and at most `ts_epsilon` ahead of it. Whatever the other peers send and whenever the
trusted party is called, no record of the trusted party is about this peer and none names it, until complaints are
judged. This holds for the call that fails as well. -/
theorem C69_not_blamed (hc : GoodClock t0.toNat eps clock) (h0 : 0 < t0.toNat) (hw : t0.toNat + 2 * eps.toNat < 2 ^ 64)
    (hd : Duo.Reach G t0 eps clock i d) (h7 : d.tp.step ≠ 7) (tpClock : ℕ → UInt64) (log : Bool) (scratch : B32)
    (input out o : Bytes) (r : Int) (c : TP) (hp : partOf d.tp input i = d.sent)
    (h : tpNext G tpClock log scratch d.tp input out = .ok (r, c, o)) :
    ∀ rec ∈ c.log, rec.peer ≠ idx i ∧ (cheaterMsg rec).1 ≠ idx i := by
  obtain ⟨new, e, hn⟩ := call_blames G hc h0 hw (reach_inv G hc h0 hw hd) h7 hp h
  intro rec hrec
  rw [e, List.mem_append] at hrec
  exact hrec.elim (reach_blames G hc h0 hw hd rec) (hn rec)

/-- **C69.** The messages of such a peer are accepted and its transcript hash is that of the trusted party. -/
theorem C69_accepted (hc : GoodClock t0.toNat eps clock) (h0 : 0 < t0.toNat) (hw : t0.toNat + 2 * eps.toNat < 2 ^ 64)
    (hd : Duo.Reach G t0 eps clock i d) (h7 : d.tp.step ≠ 7) (h9 : d.tp.step ≤ 9) (tpClock : ℕ → UInt64) (input : Bytes)
    (hl : tpInputSize d.tp = .ok input.length) (hp : partOf d.tp input i = d.sent) : Fine G tpClock d.tp input i := by
  have v := reach_inv G hc h0 hw hd
  rw [tpInputSize_good v.base.good, if_neg h7, C.ok.injEq] at hl
  exact v.fine G hc h0 hw h9 h7 hl.symm hp

/-- **C69.** When complaints are judged, such a peer is named only for a complaint that the accused has not answered, unless
the accused knows two keys for the share: they have the same code on the ciphertext, with the revealed one the share is
right and with the other it is not. What is missing is that it is not named at all, see `C63_silence_violated`. -/
theorem C69_judged_partial (hc : GoodClock t0.toNat eps clock) (h0 : 0 < t0.toNat) (hw : t0.toNat + 2 * eps.toNat < 2 ^ 64)
    (hd : Duo.Reach G t0 eps clock i d) (h7 : d.tp.step = 7) (tpClock : ℕ → UInt64) (log : Bool) (scratch : B32)
    (input out o : Bytes) (r : Int) (c : TP) (hp : partOf d.tp input i = d.sent)
    (h : tpNext G tpClock log scratch d.tp input out = .ok (r, c, o)) :
    ∀ rec ∈ c.log, (cheaterMsg rec).1 = idx i → TwoKeys G d.tp input i ∨
      rec.step = 18 ∧ rec.error = 7 ∧ rec.peer = idx i ∧
        ∃ j < d.tp.n.toNat, rec.other = idx j ∧ pair (idx i) (idx j) ∈ d.tp.known ∧ Silent tpClock d.tp input i j := by
  have v := reach_inv G hc h0 hw hd
  have b := v.base
  have ht : 1 ≤ d.tp.t.toNat := by have := b.wf.t_pos; rw [b.t] at this; omega
  intro rec hrec hname
  by_cases hk : TwoKeys G d.tp input i
  · exact .inl hk
  right
  have hold := reach_blames G hc h0 hw hd
  by_cases hl : input.length = off18 d.tp.known d.tp.n.toNat
  · obtain ⟨new, hnew, -⟩ := step7_log G b.good h7 ht h
    rw [hnew, List.mem_append] at hrec
    rcases hrec with hrec | hrec
    · exact absurd hname (hold rec hrec).2
    · exact C63_fine_judged G tpClock log scratch d.tp c input out o r b.good h7 ht h i b.lt
        (v.judged G hc h0 hw h7 hl hp hk) new hnew rec hrec hname
  · rw [wrong_log G b.good (by omega) (by rw [if_pos h7]; exact hl) h] at hrec
    exact absurd hname (hold rec hrec).2

end

/-! ## Examples -/

section Toy
open WorldToy
attribute [local instance] Ristretto.toy Toy.hashes Toy.signing Toy.noise Toy.mac

/-- The hypotheses of `C69_not_blamed` can be met: peers 2 and 3 send garbage in step 1, and peer 2 is reported. -/
example : ∃ (d : Duo) (input o : Bytes) (r : Int) (c : TP), GoodClock (20 : UInt64).toNat 10 (fun _ => 21) ∧
    Duo.Reach (ZMod L) 20 10 (fun _ => 21) 0 d ∧ d.tp.step = 1 ∧ partOf d.tp input 0 = d.sent ∧ d.sent.length = 239 ∧
    tpNext (ZMod L) (fun _ => 20) false zero32 d.tp input (S.tpEnv.buf (tpOutputSize d.tp)) = .ok (r, c, o) ∧ r ≠ 0 ∧
    ∃ rec ∈ c.log, rec.peer = 2 := by
  obtain ⟨⟨r, c, o⟩, h1, h2⟩ := Toy.isOk_elim
    (p := fun x => decide (x.1 ≠ 0) && x.2.1.log.any fun rec => rec.peer == 2)
    (x := tpNext (ZMod L) (fun _ => 20) false zero32 tp1 (line0.sent ++ List.replicate 478 0)
      (S.tpEnv.buf (tpOutputSize tp1))) (by decide +kernel)
  rw [Bool.and_eq_true, List.any_eq_true] at h2
  obtain ⟨h2, rec, h3, h4⟩ := h2
  exact ⟨_, _, o, r, c, clock_good, reached1, rfl, by decide +kernel, by decide +kernel, h1, of_decide_eq_true h2, rec, h3,
    by simpa using h4⟩

/-- **C69, violated.** Peer 1 follows the protocol and complains about the wrong share that peer 2 has sent. Peer 2 answers
with a message that is not accepted. Peer 1 is named, although no accused knows two keys. -/
theorem C69_silence_violated : ∃ (d : Duo) (input o : Bytes) (r : Int) (c : TP),
    Duo.Reach (ZMod L) 20 10 (fun _ => 21) 0 d ∧ d.tp.step = 7 ∧ partOf d.tp input 0 = d.sent ∧
    tpNext (ZMod L) (fun _ => 20) false zero32 d.tp input (S.tpEnv.buf (tpOutputSize d.tp)) = .ok (r, c, o) ∧
    ¬ TwoKeys (ZMod L) d.tp input 0 ∧ ∃ rec ∈ c.log, (cheaterMsg rec).1 = idx 0 := by
  obtain ⟨⟨r, c, o⟩, h1, h2⟩ := Toy.isOk_elim
    (p := fun x => x.2.1.log.any fun rec => (cheaterMsg rec).1 == idx 0)
    (x := tpNext (ZMod L) (fun _ => 20) false zero32 tp7 (List.replicate 144 0) (S.tpEnv.buf (tpOutputSize tp7)))
    (by decide +kernel)
  obtain ⟨rec, h3, h4⟩ := List.any_eq_true.1 h2
  have hno : ∀ j < 3, ∀ k < cnt tp7.known j, keyFor (List.replicate 144 0) tp7.known j k ≠ idx 0 := by decide +kernel
  refine ⟨_, _, o, r, c, reached7, rfl, by decide +kernel, h1, ?_, rec, h3, by simpa using h4⟩
  rintro ⟨j, hj, -, k, hk, hf, -⟩
  exact hno j hj k hk hf

end Toy

end Verif.Props
