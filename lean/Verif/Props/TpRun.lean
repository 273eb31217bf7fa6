import Verif.Proofs.TpNext

/-!
# Properties C33, C34, C38, C39 of the trusted party (`/repo/src/tp-dkg.c`)
-/

set_option linter.unusedSectionVars false

namespace Verif.Props

open TpDkg Wire Spec.Wire

/-! ## C33 -/

/-- **C33.** The announced total is the sum of the `n` announced sizes, whatever the state. -/
theorem C33_total_is_sum (c : TP) (r : Int) (sizes : List ℕ) (h0 : c.n ≠ 0) (h : tpInputSizes c = .ok (r, sizes)) :
    tpInputSize c = .ok sizes.sum ∧ sizes.length = c.n.toNat := by
  have hn : 0 < c.n.toNat := by
    rcases Nat.eq_zero_or_pos c.n.toNat with h' | h'
    · exact absurd (UInt8.toNat_inj.1 (by simpa using h')) h0
    · exact h'
  by_cases h7 : c.step = 7
  · unfold tpInputSize
    rw [if_neg h0, h]
    unfold tpInputSizes at h
    simp only [h7, if_neg (Nat.ne_of_gt hn), C.bind_eq_ok] at h
    obtain ⟨cs, _, ctr, hc, h⟩ := h
    cases h
    refine ⟨rfl, ?_⟩
    have : ∀ (cs : List UInt16) (ctr ctr' : List UInt8), countLoop cs ctr = .ok ctr' → ctr'.length = ctr.length := by
      intro cs
      induction cs with
      | nil => intro ctr ctr' h; cases h; rfl
      | cons c cs ih =>
        intro ctr ctr' h
        unfold countLoop at h
        dsimp only at h
        split at h
        · cases h
        · simp only [C.bind_eq_ok] at h
          obtain ⟨_, _, ctr2, h2, h3⟩ := h
          rw [ih _ _ h3]
          unfold st at h2
          split at h2
          · cases h2; simp
          · cases h2
    simpa using this _ _ _ hc
  · rw [tpInputSizes_eq h7] at h
    cases h
    rw [tpInputSize_eq h7 hn]
    simp [List.sum_replicate, Nat.mul_comm]

/-- **C33.** In the steps other than the one with the revealed keys the sizes are reported to be equal, and each is the
total divided by `n`; whenever they are reported to be equal, they are. -/
theorem C33_equal_partial (c : TP) (r : Int) (sizes : List ℕ) (h0 : c.n ≠ 0) (h : tpInputSizes c = .ok (r, sizes)) :
    (c.step ≠ 7 → (r = 1 ↔ ∀ x ∈ sizes, x = sizes.sum / c.n.toNat)) ∧
    (r = 1 → ∀ x ∈ sizes, x = sizes.sum / c.n.toNat) := by
  have hn : 0 < c.n.toNat := by
    rcases Nat.eq_zero_or_pos c.n.toNat with h' | h'
    · exact absurd (UInt8.toNat_inj.1 (by simpa using h')) h0
    · exact h'
  by_cases h7 : c.step = 7
  · refine ⟨fun h' => absurd h7 h', fun hr => ?_⟩
    unfold tpInputSizes at h
    simp only [h7, if_neg (Nat.ne_of_gt hn), C.bind_eq_ok] at h
    obtain ⟨cs, _, ctr, hc, h⟩ := h
    subst hr
    cases h
  · rw [tpInputSizes_eq h7] at h
    cases h
    have : ∀ x ∈ List.replicate c.n.toNat (inputOf c), x = (List.replicate c.n.toNat (inputOf c)).sum / c.n.toNat := by
      intro x hx
      rw [List.eq_of_mem_replicate hx, List.sum_replicate, smul_eq_mul, Nat.mul_div_cancel_left _ hn]
    exact ⟨fun _ => ⟨fun _ => this, fun _ => rfl⟩, fun _ => this⟩

/-- **C33.** With the revealed keys the entry of peer `i` is 0 without complaints about it and else a header with one key
per complaint. -/
theorem C33_sizes_of_answers (c : TP) (h7 : c.step = 7) (h1 : 1 ≤ c.n.toNat) (h2 : c.n.toNat ≤ 128)
    (hl : c.complaintsLen.toNat ≤ c.complaints.length) (hc : Complaints c.n.toNat c) :
    tpInputSizes c = .ok (0, (List.range c.n.toNat).map fun i =>
      let k := c.known.countP fun p => p.toNat % 256 = i + 1
      if 0 < k then 111 + 33 * k else 0) :=
  tpInputSizes_7 h7 rfl h1 h2 hl hc.nodup hc.range

/-- A state in the step of the revealed keys, with the complaints of 1 about 2 and of 2 about 1. -/
def state7 : TP where
  step := 7
  prev := 6
  sid := zero32
  n := 2
  t := 1
  sigPk := zero32
  sigSk := toB64 []
  lastTs := [0, 0]
  eps := 0
  sigPks := [zero32, zero32]
  ltPks := [zero32, zero32]
  commitments := [zero32, zero32]
  encShares := List.replicate 1024 0
  complaintsLen := 2
  complaints := [258, 513, 0, 0]
  cheaterLen := 0
  cheaters := List.replicate 3 ⟨0, 0, 0, 0, 0⟩
  cheaterMax := 3
  transcript := []
  ticks := 0

theorem state7_complaints : Complaints 2 state7 where
  nodup := by decide
  range := by
    have e : state7.known = [258, 513] := rfl
    rw [e]
    intro p hp
    simp only [List.mem_cons, List.not_mem_nil, or_false] at hp
    rcases hp with rfl | rfl
    · exact ⟨1, 2, by decide, by decide, rfl⟩
    · exact ⟨2, 1, by decide, by decide, rfl⟩
  len := by decide

theorem state7_wf : WF state7 := by constructor <;> first | exact List.length_replicate | decide

/-- **C33, violated.** With complaints of two peers about each other all sizes are equal, but unequal sizes are
reported. -/
theorem C33_equal_violated : ∃ (c : TP) (sizes : List ℕ), c.n = 2 ∧ tpInputSizes c = .ok (0, sizes) ∧
    ∀ x ∈ sizes, x = sizes.sum / 2 :=
  ⟨state7, [144, 144], rfl, rfl, by decide⟩

/-- The hypotheses of the theorems above hold, with different sizes. -/
example : ∃ c : TP, c.n ≠ 0 ∧ tpInputSizes c = .ok (0, [0, 144]) ∧ tpInputSize c = .ok 144 :=
  ⟨{ state7 with complaintsLen := 1 }, by decide, rfl, rfl⟩

example : ∃ c : TP, c.n ≠ 0 ∧ tpInputSizes c = .ok (1, [175, 175]) ∧ tpInputSize c = .ok 350 :=
  ⟨{ state7 with step := 4, t := 2 }, by decide, rfl, rfl⟩

example : 1 ≤ state7.n.toNat ∧ state7.n.toNat ≤ 128 ∧ state7.complaintsLen.toNat ≤ state7.complaints.length ∧
    Complaints state7.n.toNat state7 := ⟨by decide, by decide, by decide, state7_complaints⟩

/-! ## C34 -/

section
variable [Signing] [Hashes] (G : Type) [Ristretto G] [NoiseCrypto] [Mac]

/-- **C34.** Except in the complaint step, a call with a buffer of another than the announced length fails and changes
nothing but the step counter, which marks the run as failed. -/
theorem C34_wrong_length_partial (clock : ℕ → UInt64) (log : Bool) (scratch : B32) (c : TP) (input out : Bytes)
    (size : ℕ) (hs : tpInputSize c = .ok size) (hw : input.length ≠ size ∨ out.length ≠ tpOutputSize c)
    (h9 : c.step ≤ 9) (h6 : c.step ≠ 6) :
    ∃ r, r ≠ 0 ∧ tpNext G clock log scratch c input out = .ok (r, { c with prev := c.step, step := 99 }, out) ∧
      tpNotDone { c with prev := c.step, step := 99 } = false := by
  obtain ⟨r, s, h, hE | hQ⟩ := tpNext_total G h9 (wp_wrong G (s := ⟨c, out, 0, 0, []⟩) (clock := clock) (log := log)
    (scratch := scratch) h9 hs hw)
  · obtain ⟨hr, rfl⟩ := hE
    have hr0 : r ≠ 0 := by rcases hr with rfl | rfl <;> decide
    refine ⟨r, hr0, ?_, rfl⟩
    rw [h]
    unfold after
    rw [if_neg h6, if_pos hr0]
  · exact hQ.elim

/-- **C34.** A finished or failed run refuses every call and stays as it is. -/
theorem C34_ended (clock : ℕ → UInt64) (log : Bool) (scratch : B32) (c : TP) (input out : Bytes) (h : 10 ≤ c.step) :
    tpNext G clock log scratch c input out = .ok (99, c, out) := tpNext_ended G h

/-- **C34, violated.** In the complaint step the call fails and writes nothing, but the run is not marked as failed: it
goes on with the next step. -/
theorem C34_wrong_length_step6_violated (clock : ℕ → UInt64) (log : Bool) (scratch : B32) (c : TP) (input out : Bytes)
    (h6 : c.step = 6) (h0 : 2 ≤ c.n.toNat) (hc : c.complaintsLen = 0)
    (hw : input.length ≠ (112 + c.n.toNat) * c.n.toNat ∨ out.length ≠ 111 + c.n.toNat * (112 + c.n.toNat)) :
    ∃ r, r ≠ 0 ∧ tpNext G clock log scratch c input out = .ok (r, { c with prev := 6, step := 8 }, out) ∧
      tpNotDone { c with prev := 6, step := 8 } = true := by
  have hs : tpInputSize c = .ok ((112 + c.n.toNat) * c.n.toNat) := by
    rw [tpInputSize_eq (by omega) (by omega)]; simp [inputOf, h6]
  have ho : tpOutputSize c = 111 + c.n.toNat * (112 + c.n.toNat) := by
    simp only [tpOutputSize, h6, msg10Size, msg9Size]; ring
  rw [← ho] at hw
  obtain ⟨r, s, h, hE | hQ⟩ := tpNext_total G (show c.step ≤ 9 by omega) (wp_wrong G (s := ⟨c, out, 0, 0, []⟩) (clock := clock)
    (log := log) (scratch := scratch) (by show c.step ≤ 9; omega) hs hw)
  · obtain ⟨hr, rfl⟩ := hE
    have hr0 : r ≠ 0 := by rcases hr with rfl | rfl <;> decide
    refine ⟨r, hr0, ?_, rfl⟩
    rw [h]
    unfold after
    dsimp only
    rw [if_pos h6, if_pos hc, h6]
  · exact hQ.elim

/-- The hypotheses hold for the state above with an empty input, and in the complaint step too. -/
example : tpInputSize state7 = .ok 288 ∧ ([] : Bytes).length ≠ 288 ∧ state7.step ≤ 9 ∧ state7.step ≠ 6 :=
  ⟨rfl, by decide, by decide, by decide⟩

example : ({ state7 with step := 6, complaintsLen := 0 } : TP).step = 6 ∧
    ([] : Bytes).length ≠ (112 + state7.n.toNat) * state7.n.toNat := ⟨rfl, by decide⟩

/-! ## C38, C39 -/

/-- Calls of `tpdkg_tp_next` with the arguments `calls`: the results and the final state. -/
def tpCalls (clock : ℕ → UInt64) (log : Bool) (scratch : B32) : (c : TP) → (calls : List (Bytes × Bytes)) → C (List Int × TP)
  | c, [] => .ok ([], c)
  | c, (input, out) :: calls => do
    let (r, c, _) ← tpNext G clock log scratch c input out
    let (rs, c) ← tpCalls clock log scratch c calls
    .ok (r :: rs, c)

/-- **C38.** Whatever the inputs are: of any calls, at most 10 are successful; after 10 calls the trusted party is done;
and as soon as it is done every further call fails and changes nothing. -/
theorem C38_tp_ends (clock : ℕ → UInt64) (log : Bool) (scratch : B32) (calls : List (Bytes × Bytes)) (c c' : TP)
    (rs : List Int) (h : tpCalls G clock log scratch c calls = .ok (rs, c')) :
    rs.length = calls.length ∧ rs.count 0 ≤ 10 ∧ (10 ≤ calls.length → tpNotDone c' = false) ∧
    (tpNotDone c' = false → ∀ clock log scratch input out,
      tpNext G clock log scratch c' input out = .ok (99, c', out)) := by
  have key : ∀ (calls : List (Bytes × Bytes)) (c c' : TP) (rs : List Int),
      tpCalls G clock log scratch c calls = .ok (rs, c') →
      rs.length = calls.length ∧ rs.count 0 ≤ 10 - c.step ∧ min 10 (c.step + calls.length) ≤ c'.step := by
    intro calls
    induction calls with
    | nil => intro c c' rs h; cases h; simp
    | cons a calls ih =>
      intro c c' rs h
      obtain ⟨input, out⟩ := a
      unfold tpCalls at h
      simp only [C.bind_eq_ok, Prod.exists] at h
      obtain ⟨r, c1, o, h1, rs1, c2, h2, h3⟩ := h
      cases h3
      obtain ⟨i1, i2, i3⟩ := ih _ _ _ h2
      refine ⟨by simp [i1], ?_, ?_⟩
      · rw [List.count_cons]
        rcases tpNext_step G h1 with ⟨h4, rfl, rfl, rfl⟩ | ⟨h4, h5, _⟩
        · simpa using i2
        · split <;> omega
      · rw [List.length_cons]
        rcases tpNext_step G h1 with ⟨h4, rfl, rfl, rfl⟩ | ⟨h4, h5, _⟩ <;> omega
  obtain ⟨k1, k2, k3⟩ := key _ _ _ _ h
  refine ⟨k1, by omega, fun hl => ?_, fun hd clock log scratch input out => ?_⟩
  · unfold tpNotDone
    simp only [decide_eq_false_iff_not]
    omega
  · unfold tpNotDone at hd
    simp only [decide_eq_false_iff_not] at hd
    exact tpNext_ended G (by omega)

/-- The hypothesis holds: with inputs of a wrong length there are results for any number of calls. -/
example (clock : ℕ → UInt64) (log : Bool) (scratch : B32) :
    ∃ c, tpCalls G clock log scratch { state7 with step := 5 } [([], []), ([], []), ([], [])] = .ok ([1, 99, 99], c) :=
  ⟨_, rfl⟩

/-- **C39.** If a call outside the complaint step returns an error, the trusted party is done, and stays so. -/
theorem C39_tp_error_ends_partial (clock : ℕ → UInt64) (log : Bool) (scratch : B32) (c c' : TP) (input out o : Bytes)
    (r : Int) (h : tpNext G clock log scratch c input out = .ok (r, c', o)) (hr : r ≠ 0) (h6 : c.step ≠ 6) :
    tpNotDone c' = false ∧ ∀ calls rs c'', tpCalls G clock log scratch c' calls = .ok (rs, c'') → c'' = c' := by
  have h10 : 10 ≤ c'.step := by
    rcases tpNext_step G h with ⟨h4, _, rfl, _⟩ | ⟨_, _, h5⟩
    · omega
    · rw [h5 h6 hr]; omega
  refine ⟨by unfold tpNotDone; simp only [decide_eq_false_iff_not]; omega, fun calls => ?_⟩
  induction calls with
  | nil => intro rs c'' h; cases h; rfl
  | cons a calls ih =>
    intro rs c'' h
    obtain ⟨i, o⟩ := a
    unfold tpCalls at h
    rw [tpNext_ended G (by omega)] at h
    simp only [C.ok_bind, C.bind_eq_ok, Prod.exists] at h
    obtain ⟨rs1, c2, h2, h3⟩ := h
    cases h3
    exact ih _ _ h2

/-- **C39, violated.** After an error in the complaint step the trusted party is not done. -/
theorem C39_tp_step6_violated (clock : ℕ → UInt64) (log : Bool) (scratch : B32) :
    ∃ (c c' : TP) (input out o : Bytes) (r : Int), c.step = 6 ∧ WF c ∧
      tpNext G clock log scratch c input out = .ok (r, c', o) ∧ r ≠ 0 ∧ tpNotDone c' = true := by
  have wf : WF { state7 with step := 6, complaintsLen := 0 } := { state7_wf with }
  obtain ⟨r, hr, h, hd⟩ := C34_wrong_length_step6_violated G clock log scratch
    { state7 with step := 6, complaintsLen := 0 } [] [] rfl (by decide) rfl (.inl (by decide))
  exact ⟨_, _, [], [], [], r, rfl, wf, h, hr, hd⟩

/-- An error outside the complaint step. -/
example (clock : ℕ → UInt64) (log : Bool) (scratch : B32) :
    ∃ c' o, tpNext G clock log scratch state7 [] [] = .ok (1, c', o) ∧ state7.step ≠ 6 :=
  ⟨_, _, rfl, by decide⟩

end

end Verif.Props
