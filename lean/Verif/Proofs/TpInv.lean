import Verif.Proofs.TpKeep

/-!
# Invariant of the loops over the received messages
-/

set_option linter.unusedSectionVars false

namespace Verif.TpDkg

open H Wire Spec.Wire

section Slice

variable {α : Type} {b m : List α} {off len k : ℕ}

theorem slice_length (h : off + len ≤ b.length) : (slice b off len).length = len := by
  unfold slice; simp; omega

/-- Writing behind a slice extends it. -/
theorem slice_write {base w : ℕ} (hw : base ≤ w) (h : w + m.length ≤ b.length) :
    slice (b.take w ++ m ++ b.drop (w + m.length)) base (w - base + m.length) = slice b base (w - base) ++ m := by
  unfold slice
  have h1 : (b.take w).length = w := by simp; omega
  rw [List.append_assoc, List.drop_append_of_le_length (by omega), ← List.append_assoc, List.take_append_of_le_length,
    List.take_of_length_le, List.drop_take]
  · simp; omega
  · simp; omega

theorem slice_of_le {o : List α} (h : off + len ≤ k) (he : o.take k = b.take k) : slice o off len = slice b off len := by
  unfold slice
  have h1 : (o.drop off).take len = ((o.take k).drop off).take len := by
    rw [List.drop_take, List.take_take]; congr 1; omega
  have h2 : (b.drop off).take len = ((b.take k).drop off).take len := by
    rw [List.drop_take, List.take_take]; congr 1; omega
  rw [h1, h2, he]

theorem slice_of_ge {o : List α} (h : k ≤ off) (he : o.drop k = b.drop k) : slice o off len = slice b off len := by
  unfold slice
  obtain ⟨d, rfl⟩ := Nat.exists_eq_add_of_le h
  rw [← List.drop_drop, ← List.drop_drop, he]

end Slice

variable [Signing]

/-- Total length of messages. -/
def total (es : List Exp) : ℕ := (es.map (·.len)).sum

theorem total_append (es : List Exp) (e : Exp) : total (es ++ [e]) = total es + e.len := by
  simp [total]

/-- State after the messages `es` have been processed in a call started in `s0`. -/
structure Inv (R : Run → Run → Prop) (clock : ℕ → UInt64) (input : Bytes) (s0 : Run) (base : ℕ) (es : List Exp)
    (s : Run) : Prop where
  rel : R s0 s
  keep : KeepRun (fun _ => True) s0 s
  checked : ∀ e ∈ es, Checked clock input s0.ctx e s.ctx.log
  w_le : s.w ≤ base + total es
  clean : s.ctx.cheaterLen = 0 → s.w = base + total es ∧
    slice s.out base (total es) = (es.map fun e => slice input e.off e.len).flatten

/-- … and the next message has been checked with result `r`. -/
structure Mid (R : Run → Run → Prop) (clock : ℕ → UInt64) (input : Bytes) (s0 : Run) (base : ℕ) (es : List Exp)
    (e : Exp) (r : Int) (s : Run) : Prop where
  inv : Inv R clock input s0 base es s
  res : Result clock input s0.ctx e r

section

variable {R : Run → Run → Prop} (F : Frame (fun _ => True) R) {clock : ℕ → UInt64} {input : Bytes} {s0 s : Run} {base : ℕ}
  {es : List Exp} {e : Exp} {r : Int}

include F

theorem inv_recv (h : Inv R clock input s0 base es s) {i : ℕ} {last last' : UInt64} {k : ℕ} {msgno : UInt8}
    (hr : recvMsg (clock s.ctx.ticks) input e.off e.len msgno (idx e.i) e.rcp e.pk s.ctx.sid s.ctx.eps last =
      .ok (r, last', k)) (hm : msgno = e.msgno) :
    Mid R clock input s0 base es e r { s with ctx := received s.ctx i last' k } := by
  have hl : (s.ctx.lastTs.set i last').length = s.ctx.lastTs.length := by simp
  subst hm
  refine ⟨⟨F.trans _ _ _ h.rel (F.recv s _ _ hl (Nat.le_add_right _ _)), ?_, h.checked, h.w_le, h.clean⟩, ?_⟩
  · exact (keepRun_frame _).trans _ _ _ h.keep ((keepRun_frame _).recv s _ _ hl (Nat.le_add_right _ _))
  · refine ⟨s.ctx.ticks, last, last', k, h.keep.1.ticks, ?_⟩
    rw [← h.keep.1.sid, ← h.keep.1.eps]
    exact hr

theorem mid_report (h : Mid R clock input s0 base es e r s) (h1 : s.ctx.cheaterLen < s.ctx.cheaterMax)
    (h2 : s.ctx.cheaterMax ≤ s.ctx.cheaters.length) (x : Int) :
    Inv R clock input s0 base (es ++ [e])
      { s with ctx := report s.ctx ⟨e.rstep, e.base + r, idx e.i, e.other, x⟩ } := by
  have h3 := Nat.lt_of_lt_of_le h1 h2
  refine ⟨F.trans _ _ _ h.inv.rel (F.cheat s _ trivial h1 h3), ?_, ?_, ?_, ?_⟩
  · exact (keepRun_frame _).trans _ _ _ h.inv.keep ((keepRun_frame _).cheat s _ trivial h1 h3)
  · intro e' he'
    rw [List.mem_append, List.mem_singleton] at he'
    dsimp only
    rw [log_report h3]
    rcases he' with he' | rfl
    · obtain ⟨r', hr', hx⟩ := h.inv.checked e' he'
      refine ⟨r', hr', fun h0 => ?_⟩
      obtain ⟨x, hx⟩ := hx h0
      exact ⟨x, List.mem_append_left _ hx⟩
    · exact ⟨r, h.res, fun _ => ⟨x, List.mem_append_right _ (List.mem_singleton.2 rfl)⟩⟩
  · rw [total_append]; have := h.inv.w_le; dsimp only; omega
  · intro hc
    simp [report] at hc

theorem mid_copy (h : Mid R clock input s0 base es e 0 s) (hi : e.off + e.len ≤ input.length)
    (ho : s.w + e.len ≤ s.out.length) :
    Inv R clock input s0 base (es ++ [e])
      { s with
        out := s.out.take s.w ++ (input.drop e.off).take e.len ++ s.out.drop (s.w + e.len)
        w := s.w + e.len } := by
  have hl := slice_length hi
  have hlen : (s.out.take s.w ++ slice input e.off e.len ++ s.out.drop (s.w + e.len)).length = s.out.length := by
    simp only [List.length_append, hl, List.length_take, List.length_drop]; omega
  refine ⟨F.trans _ _ _ h.inv.rel (F.out s _ _ hlen), ?_, ?_, ?_, ?_⟩
  · exact (keepRun_frame _).trans _ _ _ h.inv.keep ((keepRun_frame _).out s _ _ hlen)
  · intro e' he'
    rw [List.mem_append, List.mem_singleton] at he'
    rcases he' with he' | rfl
    · exact h.inv.checked e' he'
    · exact ⟨0, h.res, fun h0 => absurd rfl h0⟩
  · rw [total_append]; have := h.inv.w_le; dsimp only; omega
  · intro hc
    obtain ⟨hw, hs⟩ := h.inv.clean hc
    rw [total_append]
    refine ⟨by dsimp only; omega, ?_⟩
    have := slice_write (b := s.out) (m := slice input e.off e.len) (base := base) (w := s.w) (by omega)
      (by rw [hl]; exact ho)
    rw [hl, show s.w - base = total es by omega, hs] at this
    rw [List.map_append, List.flatten_append, List.map_singleton, List.flatten_singleton]
    exact this

/-- Changes of other parts of the state. -/
theorem mid_other (h : Mid R clock input s0 base es e r s) {c : TP} (hR : R s { s with ctx := c })
    (hK : Keep (fun _ => True) s.ctx c) (h1 : c.cheaters = s.ctx.cheaters) (h2 : c.cheaterLen = s.ctx.cheaterLen) :
    Mid R clock input s0 base es e r { s with ctx := c } := by
  refine ⟨⟨F.trans _ _ _ h.inv.rel hR, ⟨h.inv.keep.1.trans hK, h.inv.keep.2⟩, ?_, h.inv.w_le, ?_⟩, h.res⟩
  · intro e he
    unfold TP.log
    dsimp only
    rw [h1, h2]
    exact h.inv.checked e he
  · intro hc
    dsimp only at hc
    rw [h2] at hc
    exact h.inv.clean hc

end

omit [Signing] in
theorem log_nil {c : TP} (h : c.cheaterLen = 0) : c.log = [] := by unfold TP.log; rw [h]; simp

/-- Without reports all messages were accepted. -/
theorem Inv.accepted {R : Run → Run → Prop} {clock : ℕ → UInt64} {input : Bytes} {s0 s : Run} {base : ℕ} {es : List Exp}
    (h : Inv R clock input s0 base es s) (hc : s.ctx.cheaterLen = 0) : ∀ e ∈ es, Result clock input s0.ctx e 0 := by
  intro e he
  obtain ⟨r, hr, hx⟩ := h.checked e he
  by_cases h0 : r = 0
  · exact h0 ▸ hr
  · obtain ⟨x, hx⟩ := hx h0
    rw [log_nil hc] at hx
    cases hx

end Verif.TpDkg
