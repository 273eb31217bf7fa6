import Verif.Props.TpMsg

/-!
# Property C49 of the trusted party (`/repo/src/tp-dkg.c`)
-/

set_option linter.unusedSectionVars false

namespace Verif.Props

open TpDkg Wire Spec.Wire Spec H Ristretto

/-- A message with a wrong length field is rejected with code 1. -/
theorem recvMsg_wrong_length [Signing] {now : UInt64} {input : Bytes} {off len : ℕ} {msgno frm rcp : UInt8} {pk sid : B32}
    {eps last last' : UInt64} {r : Int} {k : ℕ}
    (h : recvMsg now input off len msgno frm rcp pk sid eps last = .ok (r, last', k))
    (hl : beNat (slice input (off + 65) 4) ≠ len) : r = 1 := by
  unfold recvMsg at h
  rw [C.bind_eq_ok] at h
  obtain ⟨l, hl', h⟩ := h
  have e4 := rd_length hl'
  have e5 : l = slice input (off + 65) 4 := by
    unfold rd at hl'
    split at hl'
    · cases hl'; rfl
    · cases hl'
  rw [htonl_u32 e4, e5, if_pos hl] at h
  cases h; rfl

section
variable [Signing] [Hashes] (G : Type) [Ristretto G] [NoiseCrypto] [Mac]

/-- The numbers of complaints announced in the messages of step 6 do not lead out of the input. -/
def CountsFit (c : TP) (input : Bytes) : Prop :=
  ∀ i < c.n.toNat, i * (112 + c.n.toNat) + 111 + (input.getD (i * (112 + c.n.toNat) + 111) 0).toNat < input.length

/-- **C49.** A call with any input and any output buffer has defined behaviour, if there is a log file in the steps 2 and 3,
the numbers of complaints do not lead out of the input, and `t` is not 0 in step 7. What is missing are these three
cases; the claim does not hold in them. -/
theorem C49_defined_partial (clock : ℕ → UInt64) (log : Bool) (scratch : B32) (c : TP) (input out : Bytes) (g : Good c)
    (hlog : c.step = 2 ∨ c.step = 3 → log = true) (hcnt : c.step = 6 → CountsFit c input)
    (ht : c.step = 7 → 1 ≤ c.t.toNat) :
    ∃ r c' o, tpNext G clock log scratch c input out = .ok (r, c', o) ∧ o.length = out.length := by
  suffices h : ∃ r c' o, tpNext G clock log scratch c input out = .ok (r, c', o) by
    obtain ⟨r, c', o, h⟩ := h
    exact ⟨r, c', o, h, (keep_tpNext G h).2⟩
  by_cases h9 : c.step ≤ 9
  swap
  · exact ⟨_, _, _, tpNext_ended G (by omega)⟩
  by_cases hlen : input.length = (if c.step = 7 then off18 c.known c.n.toNat else inputOf c * c.n.toNat) ∧
      out.length = tpOutputSize c
  swap
  · rw [not_and_or] at hlen
    have hw := wp_wrong G (s := ⟨c, out, 0, 0, []⟩) (clock := clock) (log := log) (scratch := scratch) (input := input)
      h9 (tpInputSize_good g) hlen
    obtain ⟨r, s, h, _⟩ := tpNext_total G h9 hw
    exact ⟨_, _, _, h⟩
  obtain ⟨hil, hol⟩ := hlen
  have wf := g.wf
  obtain ⟨m, hm⟩ : ∃ m, c.n.toNat = m := ⟨_, rfl⟩
  have fin : ∀ {E Q : Int → Run → Prop} {h : H Run Int}, tpHandler G clock log scratch input c.step = h →
      Wp h False E Q ⟨c, out, 0, 0, []⟩ → ∃ r c' o, tpNext G clock log scratch c input out = .ok (r, c', o) := by
    intro E Q h e hw
    rw [← e] at hw
    obtain ⟨r, s, h, _⟩ := tpNext_total G h9 hw
    exact ⟨_, _, _, h⟩
  have hsz : msg9Size c.n = 112 + c.n.toNat := by unfold msg9Size; omega
  obtain ⟨st, hst⟩ : ∃ st, c.step = st := ⟨_, rfl⟩
  rw [hst] at hlog hcnt ht h9
  have : st = 0 ∨ st = 1 ∨ st = 2 ∨ st = 3 ∨ st = 4 ∨ st = 5 ∨ st = 6 ∨ st = 7 ∨ st = 8 ∨ st = 9 := by omega
  rcases this with rfl | rfl | rfl | rfl | rfl | rfl | rfl | rfl | rfl | rfl
  · simp only [hst, inputOf, tpOutputSize] at hil hol
    exact fin (by rw [hst]; rfl) (wp_tp1 (s := ⟨c, out, 0, 0, []⟩) (by simpa using hil) (by
      show out.length = _; rw [hol]; simp [msg1Size]))
  · simp only [hst, inputOf, tpOutputSize] at hil hol
    exact fin (by rw [hst]; rfl) (wp_tp4 (s := ⟨c, out, 0, 0, []⟩) wf (by simpa using hil) (by
      show out.length = _; rw [hol]; simp [msg2Size, hdrSize]))
  all_goals first
  | (have h68 : c.step = 2 ∨ c.step = 3 := by omega
     have hil' : input.length = 159 * m * m := by
       rcases h68 with h | h <;> (simp only [h, inputOf, hm] at hil; simpa using hil)
     have hol' : input.length = out.length := by
       rw [hil', hol]; rcases h68 with h | h <;> simp only [h, tpOutputSize, hm] <;> rfl
     have hw := wp_tp68 (clock := clock) (log := log) (input := input) (s := ⟨c, out, 0, 0, []⟩) wf hm hil' hol'
     exact fin (by rw [hst]; rfl) (hw.mono (fun h => by rw [hlog (by omega)] at h; cases h) (fun _ _ h => h) fun _ _ h => h))
  | skip
  · simp only [hst, inputOf, tpOutputSize, hm] at hil hol
    exact fin (by rw [hst]; rfl) (wp_tp12 (s := ⟨c, out, 0, 0, []⟩) wf hm (by simpa [msg6Size] using hil) (by
      show out.length = _; rw [hol, hil]; simp [hdrSize, msg6Size]))
  · simp only [hst, inputOf, tpOutputSize, hm] at hil hol
    exact fin (by rw [hst]; rfl) (wp_tp14 (s := ⟨c, out, 0, 0, []⟩) wf hm (by simpa using hil) (by
      show input.length = out.length
      rw [hol]; simp only [msg8Size]; rw [hil, if_neg (by omega)]; ring))
  · simp only [hst, inputOf, tpOutputSize] at hil hol
    have hw := wp_tp16 (clock := clock) (log := log) (input := input) (s := ⟨c, out, 0, 0, []⟩) wf hm
      (by rw [hsz, hil, hm]; simp) (by show out.length = _; exact hol)
    refine fin (by rw [hst]; rfl) (hw.mono (fun h => ?_) (fun _ _ h => h) fun _ _ h => h)
    obtain ⟨i, hi, h⟩ := h
    have h2 := hcnt rfl i (by rw [hm]; exact hi)
    dsimp only [countOf] at h
    rw [hsz] at h
    omega
  · simp only [hst, if_true] at hil
    simp only [hst, tpOutputSize] at hol
    exact fin (by rw [hst]; rfl) (wp_tp18 G (s := ⟨c, out, 0, 0, []⟩) wf rfl (ht rfl) (g.seven hst).2 hst
      (g.seven hst).1 hil (by show out.length = _; exact hol))
  · simp only [hst, inputOf, tpOutputSize, hm] at hil hol
    exact fin (by rw [hst]; rfl) (wp_tp20 (s := ⟨c, out, 0, 0, []⟩) wf hm (by simpa using hil)
      (by show out.length = _; exact hol))
  · simp only [hst, inputOf, tpOutputSize, hm] at hil hol
    exact fin (by rw [hst]; rfl) (wp_tp22 (s := ⟨c, out, 0, 0, []⟩) wf hm (by simpa using hil)
      (by show out.length = _; exact hol))

/-- **C49, violated.** Without a log file the first rejected message of the steps 2 and 3 leads to undefined behaviour
(`fprintf` with a null pointer), here for a wrong length field in the first message. -/
theorem C49_null_log_violated (clock : ℕ → UInt64) (scratch : B32) (c : TP) (input out : Bytes) (g : Good c)
    (hs : c.step = 2 ∨ c.step = 3) (hi : input.length = 159 * c.n.toNat * c.n.toNat) (ho : out.length = input.length)
    (hroom : c.cheaterLen < c.cheaterMax) (hl : beNat (slice input 65 4) ≠ 159) :
    ∃ u, tpNext G clock false scratch c input out = .ub u := by
  have wf := g.wf
  have hn := wf.n_pos
  have hb : 159 ≤ input.length := by
    rw [hi]
    calc 159 = 159 * 1 * 1 := rfl
      _ ≤ 159 * c.n.toNat * c.n.toNat := Nat.mul_le_mul (Nat.mul_le_mul_left _ (by omega)) (by omega)
  have key : Wp (tp68 clock false input) True (fun _ _ => False) (fun _ _ => False) ⟨c, out, 0, 0, []⟩ := by
    unfold tp68
    rw [wp_bind, wp_get]
    dsimp only
    rw [wp_ite]
    refine ⟨fun h => absurd hi h, fun _ => ?_⟩
    rw [wp_ite]
    refine ⟨fun h => absurd ho.symm h, fun _ => ?_⟩
    rw [wp_bind, wp_modify, wp_bind]
    refine wp_forN (fun j s => j = 0 ∧ s.ctx = c) ⟨rfl, rfl⟩ ?_ fun s h => ?_
    · rintro i s hi' ⟨rfl, hs'⟩
      refine wp_forN (fun j s => j = 0 ∧ s.ctx = c) ⟨rfl, hs'⟩ ?_ fun s h => ?_
      · rintro j s hj ⟨rfl, hs'⟩
        unfold tp68Body
        have hjl : 0 < s.ctx.sigPks.length := by rw [hs', wf.sigPks]; omega
        have hll : 0 < s.ctx.lastTs.length := by rw [hs', wf.lastTs]; omega
        dsimp only [msg4Size]
        rw [wp_bind, wp_sigPkOf hjl, wp_bind]
        refine wp_tpRecv (by simpa using hb) (by decide) hll fun r last k hq => ?_
        have hr0 : r ≠ 0 := by
          have := recvMsg_wrong_length hq (by simpa using hl)
          omega
        rw [wp_ite]
        refine ⟨fun _ => ?_, fun h => absurd hr0 h⟩
        rw [wp_bind]
        have e1 : (received s.ctx 0 last k).cheaterLen = c.cheaterLen := by rw [← hs']; rfl
        have e2 : (received s.ctx 0 last k).cheaterMax = c.cheaterMax := by rw [← hs']; rfl
        have e3 : (received s.ctx 0 last k).cheaters = c.cheaters := by rw [← hs']; rfl
        refine wp_addCheater (by dsimp only; rw [e2, e3]; exact wf.cheaters) (fun hf => ?_) fun _ x => ?_
        · dsimp only at hf; rw [e1, e2] at hf; exact absurd hf (by omega)
        · rw [wp_ite]
          refine ⟨fun _ => ?_, fun h => absurd rfl h⟩
          rw [wp_lift]
          trivial
      · exfalso; omega
    · exfalso; omega
  by_contra hno
  cases hh : tpNext G clock false scratch c input out with
  | ub u => exact hno ⟨u, hh⟩
  | ok p =>
    have e : tpHandler G clock false scratch input c.step = tp68 clock false input := by
      rcases hs with h | h <;> rw [h] <;> rfl
    rw [← e] at key
    obtain ⟨s, h | h, _⟩ := tpNext_elim G (by omega) key (r := p.1) (c := p.2.1) (o := p.2.2) hh <;> exact h

end

section
attribute [local instance] Ristretto.toy Toy.hashes Toy.signing Toy.noise Toy.mac

/-- The behaviour is undefined. -/
def undefined {α : Type} (x : C α) : Bool := match x with | .ok _ => false | .ub _ => true

theorem acceptable_elim {input : Bytes} {c : TP} {e : Exp}
    (h : (match recvMsg 5 input e.off e.len e.msgno (idx e.i) e.rcp e.pk c.sid c.eps (c.lastTs.getD e.i 0) with
      | .ok p => p.1 == 0 | .ub _ => false) = true) : Acceptable (fun _ => 5) input c e := by
  intro k _
  dsimp only
  split at h
  · rename_i p hp
    rw [beq_iff_eq] at h
    exact ⟨_, _, by rw [hp, ← h]⟩
  · cases h

/-- **C49, violated.** Step 6: the second peer announces 255 complaints in a message with room for two; the third is read
beyond the end of the input. The message is authentic and the input has the announced length. -/
theorem C49_overread_violated :
    ∃ (c : TP) (input : Bytes), Good c ∧ c.step = 6 ∧ tpInputSize c = .ok input.length ∧
      Acceptable (fun _ => 5) input c (exp16 c 0) ∧ Acceptable (fun _ => 5) input c (exp16 c 1) ∧
      ∀ log, undefined (Toy.run log c input) = true := by
  refine ⟨Toy.tp 6, Toy.msg 114 9 1 0xff [0, 0, 0] ++ Toy.msg 114 9 2 0xff [255, 1, 1], Toy.tp_good (by decide), rfl, ?_, ?_,
    ?_, ?_⟩
  · rw [tpInputSize_good (Toy.tp_good (by decide))]
    have h : (Toy.msg 114 9 1 0xff [0, 0, 0] ++ Toy.msg 114 9 2 0xff [255, 1, 1]).length = 228 := by decide +kernel
    rw [h]
    rfl
  · exact acceptable_elim (by decide +kernel)
  · exact acceptable_elim (by decide +kernel)
  · decide +kernel

/-- A trusted party with `t = 0`. -/
def noCommitmentsTp : TP :=
  { Toy.tp 6 with
    t := 0
    commitments := []
    encShares := List.replicate 512 0 ++ Toy.msg 256 8 2 1 (List.replicate 64 0 ++
      (1 :: List.replicate 48 0) ++ List.replicate 32 9) ++ List.replicate 256 0 }

theorem noCommitmentsTp_good : Good noCommitmentsTp := by
  have g := Toy.tp_good (step := 6) (by decide)
  refine ⟨{ g.wf with t_lt := by show 0 < 2; decide, commitments := rfl, encShares := ?_ }, fun _ => rfl, fun h => ?_⟩
  · show noCommitmentsTp.encShares.length = 2 * 2 * 256
    decide +kernel
  · exact absurd (show (6 : ℕ) = 7 from h) (by decide)

/-- **C49, violated.** With `t = 0` (accepted by `tpdkg_start_tp`) the complaint step fails, but the run goes on, and step 7
reads commitments although there are none. -/
theorem C49_no_commitments_violated :
    ∃ (c c' : TP) (o input : Bytes) (r : Int), Good c ∧ c.t = 0 ∧ c.step = 6 ∧
      Toy.run true c (Toy.msg 114 9 1 0xff [1, 2, 0] ++ Toy.msg 114 9 2 0xff [0, 0, 0]) = .ok (r, c', o) ∧
      c'.step = 7 ∧ undefined (Toy.run true c' input) = true := by
  obtain ⟨r, c, o, h1, h2⟩ := Toy.holds_elim (p := fun _ c _ => c.step == 7 && undefined (Toy.run true c (Toy.input 7)))
    (x := Toy.run true noCommitmentsTp (Toy.msg 114 9 1 0xff [1, 2, 0] ++ Toy.msg 114 9 2 0xff [0, 0, 0])) (by decide +kernel)
  simp only [Bool.and_eq_true, beq_iff_eq] at h2
  exact ⟨_, c, o, _, r, noCommitmentsTp_good, rfl, rfl, h1, h2.1, h2.2⟩

/-- `C49_defined_partial`: the hypotheses hold for arbitrary input in step 5, and for the input of step 6 with a complaint. -/
example (input : Bytes) : Good (Toy.tp 5) ∧ ((Toy.tp 5).step = 2 ∨ (Toy.tp 5).step = 3 → false = true) ∧
    ((Toy.tp 5).step = 6 → CountsFit (Toy.tp 5) input) ∧ Good (Toy.tp3 6) ∧ CountsFit (Toy.tp3 6)
      (Toy.msg 115 9 1 0xff [2, 2, 3, 0] ++ Toy.msg 115 9 2 0xff [0, 0, 0, 0] ++ Toy.msg 115 9 3 0xff [1, 1, 0, 0]) := by
  refine ⟨Toy.tp_good (by decide), fun h => by revert h; decide,
    fun h => absurd h (show (5 : ℕ) ≠ 6 by decide), Toy.tp3_good (by decide), ?_⟩
  show ∀ i < 3, _
  decide +kernel

/-- `C49_null_log_violated`: two peers, all messages zero. -/
example : Good (Toy.tp 2) ∧ (List.replicate 636 0 : Bytes).length = 159 * (Toy.tp 2).n.toNat * (Toy.tp 2).n.toNat ∧
    (Toy.tp 2).cheaterLen < (Toy.tp 2).cheaterMax ∧ beNat (slice (List.replicate 636 0) 65 4) ≠ 159 := by
  refine ⟨Toy.tp_good (by decide), by rw [List.length_replicate]; rfl, by decide, by decide +kernel⟩

end

end Verif.Props
