import Verif.Proofs.Report

/-!
# Property of the texts about cheaters: C91

The specification reads the numbers back from the text (`Spec/Report.lean`).
-/

set_option linter.unusedSimpArgs false

namespace Verif.Props

open TpDkg TpDkg.Report Spec.Report

theorem nums_pieces (t : Text) : ((pieces t).map nums).flatten = shown t := by
  have hr := fun e => (scan_recvErr e).2
  cases t with
  | notValidated s p o e =>
    have l0 : scan none (str "step ") = [] := by decide +kernel
    have l1 : scan none (str " message from peer ") = [] := by decide +kernel
    have l2 : scan none (str " for peer ") = [] := by decide +kernel
    have l3 : scan none (str " could not be validated: ") = [] := by decide +kernel
    simp only [pieces, u8, List.map_cons, List.map_nil, List.flatten_cons, List.flatten_nil, nums, shown, l0, l1, l2, l3, hr,
      List.nil_append, List.append_nil, List.cons_append, Int.natAbs_natCast]
  | tooMany =>
    have l0 : scan none (str "more than t^2 complaints, most peers are cheating.") = [2] := by decide +kernel
    simp only [pieces, u8, List.map_cons, List.map_nil, List.flatten_cons, List.flatten_nil, nums, shown, l0,
      List.nil_append, List.append_nil, List.cons_append, Int.natAbs_natCast]
  | invalidPeer p o =>
    have l0 : scan none (str "peer ") = [] := by decide +kernel
    have l1 : scan none (str " sent complaint about invalid peer ") = [] := by decide +kernel
    have l2 : scan none (str ".") = [] := by decide +kernel
    simp only [pieces, u8, List.map_cons, List.map_nil, List.flatten_cons, List.flatten_nil, nums, shown, l0, l1, l2,
      List.nil_append, List.append_nil, List.cons_append, Int.natAbs_natCast]
  | duplicate p o =>
    have l0 : scan none (str "peer ") = [] := by decide +kernel
    have l1 : scan none (str " sent a duplicate complaint about peer ") = [] := by decide +kernel
    have l2 : scan none (str ".") = [] := by decide +kernel
    simp only [pieces, u8, List.map_cons, List.map_nil, List.flatten_cons, List.flatten_nil, nums, shown, l0, l1, l2,
      List.nil_append, List.append_nil, List.cons_append, Int.natAbs_natCast]
  | badCode16 z =>
    have l0 : scan none (str "invalid error code for step 16: ") = [16] := by decide +kernel
    simp only [pieces, u8, List.map_cons, List.map_nil, List.flatten_cons, List.flatten_nil, nums, shown, l0,
      List.nil_append, List.append_nil, List.cons_append, Int.natAbs_natCast]
  | shareMsg p o e =>
    have l0 : scan none (str "message containing encrypted share from peer ") = [] := by decide +kernel
    have l1 : scan none (str " for peer ") = [] := by decide +kernel
    have l2 : scan none (str " could not be validated: ") = [] := by decide +kernel
    simp only [pieces, u8, List.map_cons, List.map_nil, List.flatten_cons, List.flatten_nil, nums, shown, l0, l1, l2, hr,
      List.nil_append, List.append_nil, List.cons_append, Int.natAbs_natCast]
  | keyMsg p o e =>
    have l0 : scan none (str "message revealing key encrypting share from peer ") = [] := by decide +kernel
    have l1 : scan none (str " for peer ") = [] := by decide +kernel
    have l2 : scan none (str " could not be validated: ") = [] := by decide +kernel
    simp only [pieces, u8, List.map_cons, List.map_nil, List.flatten_cons, List.flatten_nil, nums, shown, l0, l1, l2, hr,
      List.nil_append, List.append_nil, List.cons_append, Int.natAbs_natCast]
  | notComplained p o =>
    have l0 : scan none (str "accused peer ") = [] := by decide +kernel
    have l1 : scan none (str " revealed a key (for peer ") = [] := by decide +kernel
    have l2 : scan none (str ") that was not complained about") = [] := by decide +kernel
    simp only [pieces, u8, List.map_cons, List.map_nil, List.flatten_cons, List.flatten_nil, nums, shown, l0, l1, l2,
      List.nil_append, List.append_nil, List.cons_append, Int.natAbs_natCast]
  | hmac p o =>
    have l0 : scan none (str "verification of hmac of message from accused peer ") = [] := by decide +kernel
    have l1 : scan none (str " to complaining peer ") = [] := by decide +kernel
    have l2 : scan none (str " failed") = [] := by decide +kernel
    simp only [pieces, u8, List.map_cons, List.map_nil, List.flatten_cons, List.flatten_nil, nums, shown, l0, l1, l2,
      List.nil_append, List.append_nil, List.cons_append, Int.natAbs_natCast]
  | shareIndex p o z =>
    have l0 : scan none (str "accused peer ") = [] := by decide +kernel
    have l1 : scan none (str " sent an invalid share with index ") = [] := by decide +kernel
    have l2 : scan none (str " to complaining peer ") = [] := by decide +kernel
    simp only [pieces, u8, List.map_cons, List.map_nil, List.flatten_cons, List.flatten_nil, nums, shown, l0, l1, l2,
      List.nil_append, List.append_nil, List.cons_append, Int.natAbs_natCast]
  | happy p o =>
    have l0 : scan none (str "accused peer ") = [] := by decide +kernel
    have l1 : scan none (str " revealed a key for happy peer ") = [] := by decide +kernel
    simp only [pieces, u8, List.map_cons, List.map_nil, List.flatten_cons, List.flatten_nil, nums, shown, l0, l1,
      List.nil_append, List.append_nil, List.cons_append, Int.natAbs_natCast]
  | notVerified p o =>
    have l0 : scan none (str "accused peer ") = [] := by decide +kernel
    have l1 : scan none (str " complained by peer ") = [] := by decide +kernel
    have l2 : scan none (str " was not verified") = [] := by decide +kernel
    simp only [pieces, u8, List.map_cons, List.map_nil, List.flatten_cons, List.flatten_nil, nums, shown, l0, l1, l2,
      List.nil_append, List.append_nil, List.cons_append, Int.natAbs_natCast]
  | invalidParams p o =>
    have l0 : scan none (str "accused peer ") = [] := by decide +kernel
    have l1 : scan none (str " provided invalid parameters to complaint from peer ") = [] := by decide +kernel
    simp only [pieces, u8, List.map_cons, List.map_nil, List.flatten_cons, List.flatten_nil, nums, shown, l0, l1,
      List.nil_append, List.append_nil, List.cons_append, Int.natAbs_natCast]
  | falselyAccused p o =>
    have l0 : scan none (str "peer ") = [] := by decide +kernel
    have l1 : scan none (str " was falsely accused by peer ") = [] := by decide +kernel
    simp only [pieces, u8, List.map_cons, List.map_nil, List.flatten_cons, List.flatten_nil, nums, shown, l0, l1,
      List.nil_append, List.append_nil, List.cons_append, Int.natAbs_natCast]
  | caught p o =>
    have l0 : scan none (str "accused peer ") = [] := by decide +kernel
    have l1 : scan none (str " was caught cheating by peer ") = [] := by decide +kernel
    simp only [pieces, u8, List.map_cons, List.map_nil, List.flatten_cons, List.flatten_nil, nums, shown, l0, l1,
      List.nil_append, List.append_nil, List.cons_append, Int.natAbs_natCast]
  | badCode18 z =>
    have l0 : scan none (str "invalid error code for step 18: ") = [18] := by decide +kernel
    simp only [pieces, u8, List.map_cons, List.map_nil, List.flatten_cons, List.flatten_nil, nums, shown, l0,
      List.nil_append, List.append_nil, List.cons_append, Int.natAbs_natCast]
  | mismatch p =>
    have l0 : scan none (str "transcript mismatch peer ") = [] := by decide +kernel
    simp only [pieces, u8, List.map_cons, List.map_nil, List.flatten_cons, List.flatten_nil, nums, shown, l0,
      List.nil_append, List.append_nil, List.cons_append, Int.natAbs_natCast]
  | badCode20 z =>
    have l0 : scan none (str "invalid error code for step 20: ") = [20] := by decide +kernel
    simp only [pieces, u8, List.map_cons, List.map_nil, List.flatten_cons, List.flatten_nil, nums, shown, l0,
      List.nil_append, List.append_nil, List.cons_append, Int.natAbs_natCast]
  | badStep z =>
    have l0 : scan none (str "invalid step ") = [] := by decide +kernel
    simp only [pieces, u8, List.map_cons, List.map_nil, List.flatten_cons, List.flatten_nil, nums, shown, l0,
      List.nil_append, List.append_nil, List.cons_append, Int.natAbs_natCast]

/-- C91, numbers: reading the text gives back the numbers of the record, also if they have several digits. -/
theorem C91_numbers (t : Text) : numbers (render t) = shown t := by
  rw [numbers, render, scan_pieces _ (alt_pieces t), nums_pieces]

theorem ite_either {α : Type} {c : Prop} [Decidable c] (P : α → Prop) {a b : α} (ha : P a) (hb : P b) :
    P (if c then a else b) := by split <;> assumption

/-- What follows about a number and a text. -/
def Names (r : UInt8 × Text) : Prop := r.1 ≠ 0 → r.1.toNat ∈ shown r.2

theorem names (c : Cheater) : Names (cheaterMsg c) := by
  unfold cheaterMsg
  repeat' apply ite_either Names
  all_goals simp [Names, shown]

/-- C91, named: if the trusted party names a peer, the number of this peer is in the text. -/
theorem C91_named (c : Cheater) (h : (cheaterMsg c).1 ≠ 0) :
    (cheaterMsg c).1.toNat ∈ numbers (render (cheaterMsg c).2) := by
  rw [C91_numbers]
  exact names c h

theorem fits {c : Cheater} (h : Ints c) : Fits (cheaterMsg c).2 := by
  obtain ⟨h1, h2, h3⟩ := h
  show (fun r : UInt8 × Text => Fits r.2) (cheaterMsg c)
  unfold cheaterMsg
  repeat' apply ite_either fun r : UInt8 × Text => Fits r.2
  all_goals first | exact h1 | exact h2 | exact h3 | exact trivial

theorem untilZero_text {text rest : Bytes} (h : (0 : UInt8) ∉ text) : untilZero (text ++ [0] ++ rest) = text := by
  rw [untilZero, if_pos (by simp), List.append_assoc, List.takeWhile_append_of_pos]
  · simp
  · intro c hc
    simp only [ne_eq, decide_eq_true_eq]
    rintro rfl
    exact h hc

/-- C91, complete: for records of C integers the list has an entry with the whole text for every record, in their order, whatever
the number of peers; no access is out of bounds and nothing is cut off. -/
theorem C91_complete (n : UInt8) (cs : List Cheater) (h : ∀ c ∈ cs, Ints c) :
    getCheaters n cs = .ok (cs.map fun c => (cheaterMsg c).1.toNat,
      cs.map fun c => ((cheaterMsg c).1.toNat, render (cheaterMsg c).2)) := by
  induction cs with
  | nil => rfl
  | cons c cs ih =>
    have hl := render_length _ (fits (h c (by simp)))
    have e : snprintf (List.replicate 128 0) 128 (render (cheaterMsg c).2) =
        .ok (render (cheaterMsg c).2 ++ [0] ++ List.replicate (127 - (render (cheaterMsg c).2).length) 0) := by
      unfold snprintf
      rw [if_neg (by decide)]
      simp only []
      rw [List.take_of_length_le (by omega), if_pos (by simp; omega)]
      congr 2
      rw [List.drop_replicate, List.length_append, List.length_singleton]
      congr 1
      omega
    rw [getCheaters, e, C.ok_bind]
    simp only []
    rw [ih fun x hx => h x (by simp [hx]), C.ok_bind]
    simp only []
    rw [if_neg (by omega), untilZero_text (render_zero _)]
    rfl

/-- C91, buffers of any size: the call never writes outside of the buffer, and what can be read there as a string is the text,
or as much of it as fits in before the terminator. -/
theorem C91_buffer (c : Cheater) (out : Bytes) : ∃ s, snprintf out out.length (render (cheaterMsg c).2) = .ok s ∧
    s.length = out.length ∧ (out ≠ [] → 0 ∈ s ∧ untilZero s = (render (cheaterMsg c).2).take (out.length - 1)) := by
  unfold snprintf
  split
  · rename_i h
    exact ⟨_, rfl, rfl, fun hne => absurd (List.length_eq_zero_iff.1 h) hne⟩
  · rename_i h
    have hl : ((render (cheaterMsg c).2).take (out.length - 1) ++ [0]).length ≤ out.length := by
      rw [List.length_append, List.length_take, List.length_singleton]
      omega
    dsimp only
    rw [if_pos hl]
    refine ⟨_, rfl, ?_, fun _ => ⟨by simp, untilZero_text fun hz => render_zero _ (List.mem_of_mem_take hz)⟩⟩
    rw [List.length_append, List.length_drop]
    omega

/-- C91, the range: the test of the range lets every number through, also those above the number of peers; the code says it
skips such entries. -/
theorem C91_range_violated (n : UInt8) (hn : n.toNat < 255) : ∃ c, Ints c ∧ n < (cheaterMsg c).1 ∧
    getCheaters n [c] = .ok ([(cheaterMsg c).1.toNat], [((cheaterMsg c).1.toNat, render (cheaterMsg c).2)]) := by
  refine ⟨⟨20, 1, 255, 0, 0⟩, ⟨by decide, by decide, by decide⟩, ?_, ?_⟩
  · rw [UInt8.lt_iff_toNat_lt]
    exact hn
  · exact C91_complete n [_] (by simpa using ⟨by decide, by decide, by decide⟩)

/-- C91, nobody: the record for too many complaints names no peer, and the wrapper adds the number 0, which belongs to the trusted
party, to the set of cheaters. -/
theorem C91_zero_violated (n : UInt8) (p o : UInt8) (i : Int) (hi : i.natAbs ≤ 2 ^ 31) :
    ∃ l, getCheaters n [⟨16, 6, p, o, i⟩] = .ok ([0], l) := by
  refine ⟨_, C91_complete n [_] ?_⟩
  intro c hc
  rw [List.mem_singleton] at hc
  subst hc
  exact ⟨by norm_num, by norm_num, hi⟩

/-! ### Examples -/

/-- `C91_buffer`: a buffer that is too small. -/
example : snprintf [1, 2, 3, 4, 5] 5 (render (cheaterMsg ⟨18, 5, 3, 100, -7⟩).2) =
    .ok ((render (cheaterMsg ⟨18, 5, 3, 100, -7⟩).2).take 4 ++ [0]) := by decide +kernel

/-- The longest text. -/
example : (render (.keyMsg 127 128 9)).length = 117 := by decide +kernel

example : numbers (render (.shareIndex 3 100 (-7))) = [3, 100, 7] := by decide +kernel

example : Ints ⟨18, 5, 3, 100, -7⟩ ∧ (cheaterMsg ⟨18, 5, 3, 100, -7⟩).1 ≠ 0 := ⟨⟨by decide, by decide, by decide⟩, by decide⟩

end Verif.Props
