import Verif.Proofs.Tp18

/-!
# Calls of `tpdkg_tp_next`
-/

set_option linter.unusedSectionVars false

namespace Verif.TpDkg

open H Wire Spec.Wire

variable [Signing] [Hashes] (G : Type) [Ristretto G] [NoiseCrypto] [Mac]

/-- The update of the step counters after the handler of step `k`. -/
def after (k : ℕ) (r : Int) (c : TP) : TP :=
  { c with
    prev := c.step
    step := if k = 6 then c.step + (if c.complaintsLen = 0 then 2 else 1) else if r ≠ 0 then 99 else c.step + 1 }

theorem tpNext_ended {clock : ℕ → UInt64} {log : Bool} {scratch : B32} {ctx : TP} {input out : Bytes} (h : 9 < ctx.step) :
    tpNext G clock log scratch ctx input out = .ok (99, ctx, out) := by
  unfold tpNext; rw [if_pos h]

theorem tpNext_eq {clock : ℕ → UInt64} {log : Bool} {scratch : B32} {ctx : TP} {input out : Bytes} (h : ctx.step ≤ 9) :
    tpNext G clock log scratch ctx input out =
      ((tpHandler G clock log scratch input ctx.step).result ⟨ctx, out, 0, 0, []⟩ >>= fun p =>
        .ok (p.1, after ctx.step p.1 p.2.ctx, p.2.out)) := by
  unfold tpNext
  rw [if_neg (by omega)]
  congr 1
  funext p
  obtain ⟨r, s⟩ := p
  unfold after
  dsimp only
  by_cases h6 : ctx.step = 6
  · simp only [if_pos h6]
  · simp only [if_neg h6]

/-- What holds for the results of the handler holds for the results of the call. -/
theorem tpNext_elim {clock : ℕ → UInt64} {log : Bool} {scratch : B32} {ctx c : TP} {input out o : Bytes} {r : Int}
    {U : Prop} {E Q : Int → Run → Prop} (h : ctx.step ≤ 9)
    (hw : Wp (tpHandler G clock log scratch input ctx.step) U E Q ⟨ctx, out, 0, 0, []⟩)
    (hr : tpNext G clock log scratch ctx input out = .ok (r, c, o)) :
    ∃ s, (E r s ∨ Q r s) ∧ c = after ctx.step r s.ctx ∧ o = s.out := by
  rw [tpNext_eq G h, C.bind_eq_ok] at hr
  obtain ⟨⟨r', s⟩, h1, h2⟩ := hr
  have h3 : Wp (tpHandler G clock log scratch input ctx.step) True (fun r s => E r s ∨ Q r s) (fun r s => E r s ∨ Q r s)
      ⟨ctx, out, 0, 0, []⟩ := hw.mono (fun _ => trivial) (fun _ _ h => .inl h) (fun _ _ h => .inr h)
  have h4 := (wlp_result.1 h3) r' s h1
  cases h2
  exact ⟨s, h4, rfl, rfl⟩

theorem tpNext_total {clock : ℕ → UInt64} {log : Bool} {scratch : B32} {ctx : TP} {input out : Bytes}
    {E Q : Int → Run → Prop} (h : ctx.step ≤ 9)
    (hw : Wp (tpHandler G clock log scratch input ctx.step) False E Q ⟨ctx, out, 0, 0, []⟩) :
    ∃ r s, tpNext G clock log scratch ctx input out = .ok (r, after ctx.step r s.ctx, s.out) ∧ (E r s ∨ Q r s) := by
  have h3 : Wp (tpHandler G clock log scratch input ctx.step) False (fun r s => E r s ∨ Q r s) (fun r s => E r s ∨ Q r s)
      ⟨ctx, out, 0, 0, []⟩ := hw.mono id (fun _ _ h => .inl h) (fun _ _ h => .inr h)
  obtain ⟨r, s, h1, h2⟩ := wp_result.1 h3
  refine ⟨r, s, ?_, h2⟩
  rw [tpNext_eq G h, h1]
  rfl

/-! ## Sizes -/

/-- The bytes expected from each peer in the steps other than 7. -/
def inputOf (c : TP) : ℕ :=
  match c.step with
  | 1 => 239
  | 2 => 159 * c.n.toNat
  | 3 => 159 * c.n.toNat
  | 4 => 111 + 32 * c.t.toNat
  | 5 => 256 * c.n.toNat
  | 6 => 112 + c.n.toNat
  | 8 => 143
  | 9 => 113
  | _ => 0

omit [Signing] [Hashes] [NoiseCrypto] [Mac] in
theorem tpInputSizes_eq {c : TP} (h : c.step ≠ 7) : tpInputSizes c = .ok (1, List.replicate c.n.toNat (inputOf c)) := by
  unfold tpInputSizes inputOf
  split <;> (try simp [*, msg2Size, msg4Size, msg6Size, msg9Size, msg8Size, msg19Size, msg21Size]) <;> first | omega | skip

omit [Signing] [Hashes] [NoiseCrypto] [Mac] in
theorem tpInputSize_eq {c : TP} (h : c.step ≠ 7) (h0 : 0 < c.n.toNat) :
    tpInputSize c = .ok (inputOf c * c.n.toNat) := by
  unfold tpInputSize
  have hn : c.n ≠ 0 := by intro he; rw [he] at h0; simp at h0
  rw [if_neg hn, tpInputSizes_eq h]
  have : ld (List.replicate c.n.toNat (inputOf c)) 0 = .ok (inputOf c) := by
    rw [ld_ok (by simpa using h0)]; simp
  simp [this]

/-- Buffers of another length are refused before anything is done. -/
theorem wp_wrong {clock : ℕ → UInt64} {log : Bool} {scratch : B32} {s : Run} {input : Bytes} {size : ℕ}
    (h9 : s.ctx.step ≤ 9) (hs : tpInputSize s.ctx = .ok size)
    (hw : input.length ≠ size ∨ s.out.length ≠ tpOutputSize s.ctx) :
    Wp (tpHandler G clock log scratch input s.ctx.step) False (fun e s' => (e = 1 ∨ e = 2) ∧ s' = s)
      (fun _ _ => False) s := by
  have hn : 0 < s.ctx.n.toNat := by
    rcases Nat.eq_zero_or_pos s.ctx.n.toNat with h | h
    · unfold tpInputSize at hs
      rw [if_pos (UInt8.toNat_inj.1 (by simpa using h))] at hs
      cases hs
    · exact h
  by_cases h7 : s.ctx.step = 7
  · rw [h7]
    show Wp (tp18 G clock log scratch input) _ _ _ s
    unfold tp18
    rw [wp_bind, wp_get, wp_bind, wp_lift_ok hs, wp_ite]
    refine ⟨fun _ => ⟨.inl rfl, rfl⟩, fun h1 => ?_⟩
    rw [wp_ite]
    refine ⟨fun _ => ⟨.inr rfl, rfl⟩, fun h2 => ?_⟩
    rcases hw with hw | hw
    · exact absurd hw h1
    · refine absurd (not_not.1 h2) ?_
      simpa [tpOutputSize, h7] using hw
  · rw [tpInputSize_eq h7 hn] at hs
    cases hs
    unfold tpHandler
    unfold inputOf tpOutputSize at hw
    split
    all_goals try (rename_i h; simp only [h] at hw)
    · unfold tp1
      rw [wp_bind, wp_get, wp_ite]
      refine ⟨fun _ => ⟨.inl rfl, rfl⟩, fun h1 => ?_⟩
      rw [wp_ite]
      refine ⟨fun _ => ⟨.inr rfl, rfl⟩, fun h2 => ?_⟩
      simp only [msg1Size] at *; omega
    · unfold tp4
      rw [wp_bind, wp_get]; dsimp only
      rw [wp_ite]
      refine ⟨fun _ => ⟨.inl rfl, rfl⟩, fun h1 => ?_⟩
      rw [wp_ite]
      refine ⟨fun _ => ⟨.inr rfl, rfl⟩, fun h2 => ?_⟩
      simp only [msg2Size, hdrSize] at *; omega
    · unfold tp68
      rw [wp_bind, wp_get]; dsimp only
      rw [wp_ite]
      refine ⟨fun _ => ⟨.inl rfl, rfl⟩, fun h1 => ?_⟩
      rw [wp_ite]
      refine ⟨fun _ => ⟨.inr rfl, rfl⟩, fun h2 => ?_⟩
      simp only [msg4Size] at *; omega
    · unfold tp68
      rw [wp_bind, wp_get]; dsimp only
      rw [wp_ite]
      refine ⟨fun _ => ⟨.inl rfl, rfl⟩, fun h1 => ?_⟩
      rw [wp_ite]
      refine ⟨fun _ => ⟨.inr rfl, rfl⟩, fun h2 => ?_⟩
      simp only [msg4Size, msg5Size] at *; omega
    · unfold tp12
      rw [wp_bind, wp_get]; dsimp only
      rw [wp_ite]
      refine ⟨fun _ => ⟨.inl rfl, rfl⟩, fun h1 => ?_⟩
      rw [wp_ite]
      refine ⟨fun _ => ⟨.inr rfl, rfl⟩, fun h2 => ?_⟩
      simp only [msg6Size, hdrSize] at *; omega
    · unfold tp14
      rw [wp_bind, wp_get]; dsimp only
      rw [wp_ite]
      refine ⟨fun _ => ⟨.inl rfl, rfl⟩, fun h1 => ?_⟩
      rw [wp_ite]
      refine ⟨fun _ => ⟨.inr rfl, rfl⟩, fun h2 => ?_⟩
      simp only [msg8Size] at *
      have : s.ctx.n.toNat * s.ctx.n.toNat * 256 = 256 * s.ctx.n.toNat * s.ctx.n.toNat := by ring
      omega
    · unfold tp16
      rw [wp_bind, wp_get]; dsimp only
      rw [wp_ite]
      refine ⟨fun _ => ⟨.inl rfl, rfl⟩, fun h1 => ?_⟩
      rw [wp_ite]
      refine ⟨fun _ => ⟨.inr rfl, rfl⟩, fun h2 => ?_⟩
      have : msg9Size s.ctx.n = 112 + s.ctx.n.toNat := by unfold msg9Size; omega
      rw [this] at h1
      omega
    · exact absurd ‹_› h7
    · unfold tp20
      rw [wp_bind, wp_get]; dsimp only
      rw [wp_ite]
      refine ⟨fun _ => ⟨.inl rfl, rfl⟩, fun h1 => ?_⟩
      rw [wp_ite]
      refine ⟨fun _ => ⟨.inr rfl, rfl⟩, fun h2 => ?_⟩
      simp only [msg19Size, msg20Size] at *; omega
    · unfold tp22
      rw [wp_bind, wp_get]; dsimp only
      rw [wp_ite]
      refine ⟨fun _ => ⟨.inl rfl, rfl⟩, fun h1 => ?_⟩
      rw [wp_ite]
      refine ⟨fun _ => ⟨.inr rfl, rfl⟩, fun h2 => ?_⟩
      simp only [msg21Size] at *; omega
    · simp only [imp_false] at *; omega

/-! ## The step counter and the complaints -/

/-- The handlers leave the step counter or set it to 99. -/
def StepRel (s s' : Run) : Prop := s'.ctx.step = s.ctx.step ∨ s'.ctx.step = 99

omit [Signing] [Hashes] [NoiseCrypto] [Mac] in
theorem stepRel_frame : Frame (fun _ => True) StepRel where
  refl s := .inl rfl
  trans a b c h h' := by unfold StepRel at *; omega
  recv s l k _ _ := .inl rfl
  cheat s c _ _ _ := .inl rfl
  out s o w _ := .inl rfl
  loc s l r := .inl rfl

theorem step_tpHandler {clock : ℕ → UInt64} {log : Bool} {scratch : B32} {input : Bytes} (s : Run) :
    Wp (tpHandler G clock log scratch input s.ctx.step) True (fun _ s' => StepRel s s') (fun _ s' => StepRel s s') s := by
  have F := stepRel_frame
  have e : ∀ {m : H Run Int} {R : Run → Run → Prop} {V : Int → Prop},
      Wp m True (fun _ s' => R s s') (fun a s' => R s s' ∧ V a) s →
      Wp m True (fun _ s' => R s s') (fun _ s' => R s s') s :=
    fun h => h.mono id (fun _ _ h => h) fun _ _ h => h.1
  unfold tpHandler
  split
  · exact e (pres_tp1 F _ _ _ s)
  · exact e (pres_tp4 F (fun _ _ _ _ _ => trivial) (fun _ _ _ => .inl rfl) (fun _ _ => .inl rfl) s)
  · exact e (pres_tp68 F s (fun _ _ _ _ _ _ _ => trivial))
  · exact e (pres_tp68 F s (fun _ _ _ _ _ _ _ => trivial))
  · exact e (pres_tp12 F (fun _ _ _ _ _ => trivial) (fun _ _ _ => .inl rfl) (fun _ _ => .inl rfl) s)
  · exact e (pres_tp14 F (fun _ _ _ _ _ _ _ => trivial) (fun _ _ _ => .inl rfl) s)
  · exact e (pres_tp16 F (fun _ _ _ _ _ => trivial) (fun _ _ _ _ => trivial) (fun _ _ _ _ => trivial)
      (fun _ => trivial) (fun _ _ _ _ => .inl rfl) (fun _ _ => .inl rfl) s)
  · exact e (pres_tp18 F G (fun _ _ _ _ => trivial) (fun _ _ _ _ _ => trivial) (fun _ _ _ => trivial)
      (fun _ => .inr rfl) s)
  · exact e (pres_tp20 F (fun _ _ _ _ _ => trivial) (fun _ _ _ => trivial) (fun _ => .inr rfl) s)
  · exact e (pres_tp22 F (fun _ _ _ _ _ => trivial) s)
  · exact .inl rfl

/-- Only step 6 changes the complaints. -/
theorem complaints_tpHandler {clock : ℕ → UInt64} {log : Bool} {scratch : B32} {input : Bytes} (s : Run)
    (h6 : s.ctx.step ≠ 6) :
    Wp (tpHandler G clock log scratch input s.ctx.step) True
      (fun _ s' => Same (fun c => (c.complaintsLen, c.complaints)) s s')
      (fun _ s' => Same (fun c => (c.complaintsLen, c.complaints)) s s') s := by
  have F : Frame (fun _ => True) (Same fun c => (c.complaintsLen, c.complaints)) :=
    same_frame (fun _ _ _ => rfl) (fun _ _ => rfl)
  have e : ∀ {m : H Run Int} {R : Run → Run → Prop} {V : Int → Prop},
      Wp m True (fun _ s' => R s s') (fun a s' => R s s' ∧ V a) s →
      Wp m True (fun _ s' => R s s') (fun _ s' => R s s') s :=
    fun h => h.mono id (fun _ _ h => h) fun _ _ h => h.1
  unfold tpHandler
  split
  · exact e (pres_tp1 F _ _ _ s)
  · exact e (pres_tp4 F (fun _ _ _ _ _ => trivial) (fun _ _ _ => rfl) (fun _ _ => rfl) s)
  · exact e (pres_tp68 F s (fun _ _ _ _ _ _ _ => trivial))
  · exact e (pres_tp68 F s (fun _ _ _ _ _ _ _ => trivial))
  · exact e (pres_tp12 F (fun _ _ _ _ _ => trivial) (fun _ _ _ => rfl) (fun _ _ => rfl) s)
  · exact e (pres_tp14 F (fun _ _ _ _ _ _ _ => trivial) (fun _ _ _ => rfl) s)
  · exact absurd ‹_› h6
  · exact e (pres_tp18 F G (fun _ _ _ _ => trivial) (fun _ _ _ _ _ => trivial) (fun _ _ _ => trivial)
      (fun _ => rfl) s)
  · exact e (pres_tp20 F (fun _ _ _ _ _ => trivial) (fun _ _ _ => trivial) (fun _ => rfl) s)
  · exact e (pres_tp22 F (fun _ _ _ _ _ => trivial) s)
  · rfl

/-- Only the handlers of steps 7 and 8 change the step counter. -/
theorem stay_tpHandler {clock : ℕ → UInt64} {log : Bool} {scratch : B32} {input : Bytes} (s : Run)
    (h7 : s.ctx.step ≠ 7) (h8 : s.ctx.step ≠ 8) :
    Wp (tpHandler G clock log scratch input s.ctx.step) True (fun _ s' => s'.ctx.step = s.ctx.step)
      (fun _ s' => s'.ctx.step = s.ctx.step) s := by
  have F : Frame (fun _ => True) (Same fun c => c.step) := same_frame (fun _ _ _ => rfl) (fun _ _ => rfl)
  have e : ∀ {m : H Run Int} {V : Int → Prop},
      Wp m True (fun _ s' => Same (fun c => c.step) s s') (fun a s' => Same (fun c => c.step) s s' ∧ V a) s →
      Wp m True (fun _ s' => s'.ctx.step = s.ctx.step) (fun _ s' => s'.ctx.step = s.ctx.step) s :=
    fun h => h.mono id (fun _ _ h => h) fun _ _ h => h.1
  unfold tpHandler
  split
  · exact e (pres_tp1 F _ _ _ s)
  · exact e (pres_tp4 F (fun _ _ _ _ _ => trivial) (fun _ _ _ => rfl) (fun _ _ => rfl) s)
  · exact e (pres_tp68 F s (fun _ _ _ _ _ _ _ => trivial))
  · exact e (pres_tp68 F s (fun _ _ _ _ _ _ _ => trivial))
  · exact e (pres_tp12 F (fun _ _ _ _ _ => trivial) (fun _ _ _ => rfl) (fun _ _ => rfl) s)
  · exact e (pres_tp14 F (fun _ _ _ _ _ _ _ => trivial) (fun _ _ _ => rfl) s)
  · exact e (pres_tp16 F (fun _ _ _ _ _ => trivial) (fun _ _ _ _ => trivial) (fun _ _ _ _ => trivial)
      (fun _ => trivial) (fun _ _ _ _ => rfl) (fun _ _ => rfl) s)
  · exact absurd ‹_› h7
  · exact absurd ‹_› h8
  · exact e (pres_tp22 F (fun _ _ _ _ _ => trivial) s)
  · rfl

/-- The previous step is the step of the call. -/
theorem tpNext_prev {clock : ℕ → UInt64} {log : Bool} {scratch : B32} {ctx c : TP} {input out o : Bytes} {r : Int}
    (h9 : ctx.step ≤ 9) (h7 : ctx.step ≠ 7) (h8 : ctx.step ≠ 8)
    (hr : tpNext G clock log scratch ctx input out = .ok (r, c, o)) : c.prev = ctx.step := by
  obtain ⟨s, hs, rfl, rfl⟩ := tpNext_elim G h9 (stay_tpHandler G ⟨ctx, out, 0, 0, []⟩ h7 h8) hr
  exact hs.elim id id

/-- Every call that is not refused increases the step counter. -/
theorem tpNext_step {clock : ℕ → UInt64} {log : Bool} {scratch : B32} {ctx c : TP} {input out o : Bytes} {r : Int}
    (hr : tpNext G clock log scratch ctx input out = .ok (r, c, o)) :
    (9 < ctx.step ∧ r = 99 ∧ c = ctx ∧ o = out) ∨ (ctx.step ≤ 9 ∧ ctx.step < c.step ∧ (ctx.step ≠ 6 → r ≠ 0 → c.step = 99)) := by
  by_cases h : ctx.step ≤ 9
  · right
    obtain ⟨s, hs, rfl, rfl⟩ := tpNext_elim G h (step_tpHandler G ⟨ctx, out, 0, 0, []⟩) hr
    have hs : StepRel ⟨ctx, out, 0, 0, []⟩ s := hs.elim id id
    unfold StepRel at hs
    refine ⟨h, ?_, ?_⟩
    · unfold after
      dsimp only at hs ⊢
      split <;> split <;> omega
    · intro h6 h0
      unfold after
      dsimp only
      rw [if_neg h6, if_pos h0]
  · rw [tpNext_ended G (by omega)] at hr
    cases hr
    exact .inl ⟨by omega, rfl, rfl, rfl⟩

/-! ## Reachable states -/

/-- States that the calls of the interface lead to. The caller's buffers have the sizes demanded by the documentation. -/
inductive Reachable : TP → Prop
  | start {ctx c c' : TP} {now now' eps : UInt64} {n t : UInt8} {name msg0 m encShares : Bytes} {sid seed : B32}
      {commitments sigPks ltPks : List B32} {complaints : List UInt16} {cheaters : List Cheater} {cheaterMax : ℕ}
      {lastTs : List UInt64} (h : startTp ctx now eps n t name sid seed msg0 = .ok (0, c, m))
      (h1 : commitments.length = n.toNat * t.toNat) (h2 : complaints.length = n.toNat * n.toNat)
      (h3 : encShares.length = n.toNat * n.toNat * 256) (h4 : cheaters.length = cheaterMax)
      (h5 : sigPks.length = n.toNat) (h6 : ltPks.length = n.toNat) (h7 : lastTs.length = n.toNat)
      (hb : tpSetBufs c now' commitments complaints encShares cheaters cheaterMax sigPks ltPks lastTs = .ok c') :
      Reachable c'
  | next {c c' : TP} {clock : ℕ → UInt64} {log : Bool} {scratch : B32} {input out o : Bytes} {r : Int} (hc : Reachable c)
      (h : tpNext G clock log scratch c input out = .ok (r, c', o)) : Reachable c'

/-- Properties of reachable states. -/
structure Good (c : TP) : Prop where
  wf : WF c
  early : c.step ≤ 6 → c.complaintsLen = 0
  seven : c.step = 7 → c.complaintsLen ≠ 0 ∧ Complaints c.n.toNat c

theorem start_ok {ctx c : TP} {now eps : UInt64} {n t : UInt8} {name msg0 m : Bytes} {sid seed : B32}
    (h : startTp ctx now eps n t name sid seed msg0 = .ok (0, c, m)) :
    c.n = n ∧ c.t = t ∧ c.step = 0 ∧ c.complaintsLen = 0 ∧ c.cheaterLen = 0 ∧ 2 ≤ n.toNat ∧ n.toNat ≤ 128 ∧
      t.toNat < n.toNat := by
  unfold startTp at h
  split at h
  · cases h
  rename_i hp
  split at h
  · cases h
  split at h
  · cases h
  split at h
  · cases h
  simp only [C.bind_eq_ok] at h
  obtain ⟨_, _, _, _, _, _, _, _, _, _, h⟩ := h
  cases h
  simp only [not_or, gt_iff_lt, ge_iff_le, UInt8.lt_iff_toNat_lt, UInt8.le_iff_toNat_le] at hp
  have e2 : UInt8.toNat 2 = 2 := rfl
  have e128 : UInt8.toNat 128 = 128 := rfl
  refine ⟨rfl, rfl, rfl, rfl, rfl, ?_, ?_, ?_⟩ <;> omega

theorem setBufs_ok {c c' : TP} {now : UInt64} {encShares : Bytes}
    {commitments sigPks ltPks : List B32} {complaints : List UInt16} {cheaters : List Cheater} {cheaterMax : ℕ}
    {lastTs : List UInt64}
    (h : tpSetBufs c now commitments complaints encShares cheaters cheaterMax sigPks ltPks lastTs = .ok c') :
    ∃ cs ts, cs.length = cheaters.length ∧ ts.length = lastTs.length ∧ cheaterMax ≤ cheaters.length ∧
      ts.take c.n.toNat = List.replicate c.n.toNat now ∧
      c' = { c with commitments, complaints, encShares, cheaters := cs, cheaterMax, sigPks, ltPks, lastTs := ts,
                    ticks := c.ticks + 1 } := by
  unfold tpSetBufs at h
  simp only [C.bind_eq_ok] at h
  obtain ⟨cs, h1, ts, h2, h3⟩ := h
  cases h3
  refine ⟨cs, ts, wr_length h1, wr_length h2, ?_, ?_, rfl⟩
  · unfold wr at h1
    split at h1
    · simp at *; omega
    · cases h1
  · unfold wr at h2
    split at h2
    · cases h2
      simp
    · cases h2

theorem good_start {ctx c c' : TP} {now now' eps : UInt64} {n t : UInt8} {name msg0 m encShares : Bytes} {sid seed : B32}
    {commitments sigPks ltPks : List B32} {complaints : List UInt16} {cheaters : List Cheater} {cheaterMax : ℕ}
    {lastTs : List UInt64} (h : startTp ctx now eps n t name sid seed msg0 = .ok (0, c, m))
    (h1 : commitments.length = n.toNat * t.toNat) (h2 : complaints.length = n.toNat * n.toNat)
    (h3 : encShares.length = n.toNat * n.toNat * 256) (h4 : cheaters.length = cheaterMax)
    (h5 : sigPks.length = n.toNat) (h6 : ltPks.length = n.toNat) (h7 : lastTs.length = n.toNat)
    (hb : tpSetBufs c now' commitments complaints encShares cheaters cheaterMax sigPks ltPks lastTs = .ok c') :
    Good c' ∧ c'.step = 0 ∧ c'.cheaterLen = 0 := by
  obtain ⟨e1, e2, e3, e4, e5, e6, e7, e8⟩ := start_ok h
  obtain ⟨cs, ts, f1, f2, f3, _, rfl⟩ := setBufs_ok hb
  refine ⟨⟨⟨?_, ?_, ?_, ?_, ?_, ?_, ?_, ?_, ?_, ?_, ?_⟩, fun _ => e4, fun hs => ?_⟩, e3, e5⟩
  all_goals dsimp only at *
  all_goals try rw [e1]
  all_goals try rw [e2]
  all_goals try omega

theorem keep_tpNext {clock : ℕ → UInt64} {log : Bool} {scratch : B32} {ctx c : TP} {input out o : Bytes} {r : Int}
    (hr : tpNext G clock log scratch ctx input out = .ok (r, c, o)) :
    Keep (Recordable ctx.step) ctx { c with prev := ctx.prev } ∧ o.length = out.length := by
  by_cases h : ctx.step ≤ 9
  · obtain ⟨s, hs, rfl, rfl⟩ := tpNext_elim G h (keep_tpHandler G ⟨ctx, out, 0, 0, []⟩) hr
    have hs : KeepRun (Recordable ctx.step) ⟨ctx, out, 0, 0, []⟩ s := hs.elim id id
    refine ⟨{ hs.1 with prev := rfl }, hs.2⟩
  · rw [tpNext_ended G (by omega)] at hr
    cases hr
    exact ⟨Keep.refl _, rfl⟩

omit [Signing] [Hashes] [NoiseCrypto] [Mac] in
theorem WF.congr {c c' : TP} {p : ℕ} (w : WF { c with prev := p }) (h : c' = { c with prev := c'.prev }) : WF c' := by
  rw [h]
  exact { w with }

/-- The announced length of the input of a well-formed state. -/
theorem tpInputSize_good {c : TP} (g : Good c) :
    tpInputSize c = .ok (if c.step = 7 then off18 c.known c.n.toNat else inputOf c * c.n.toNat) := by
  have := g.wf.n_pos
  split
  · exact tpInputSize_7 ‹_› g.wf rfl (g.seven ‹_›).2
  · exact tpInputSize_eq ‹_› (by omega)

theorem good_next {clock : ℕ → UInt64} {log : Bool} {scratch : B32} {ctx c : TP} {input out o : Bytes} {r : Int}
    (g : Good ctx) (hr : tpNext G clock log scratch ctx input out = .ok (r, c, o)) : Good c := by
  have wf : WF c := by
    have := g.wf.keep (keep_tpNext G hr).1
    exact { this with }
  by_cases h : ctx.step ≤ 9
  · rcases tpNext_step G hr with h' | ⟨_, h1, h2⟩
    · omega
    by_cases h6 : ctx.step = 6
    · refine ⟨wf, fun h => by omega, fun h7 => ?_⟩
      by_cases hlen : input.length = inputOf ctx * ctx.n.toNat ∧ out.length = tpOutputSize ctx
      · obtain ⟨hi, ho⟩ := hlen
        have e : msg9Size ctx.n = inputOf ctx := by simp only [msg9Size, inputOf, h6]; omega
        have hw := wp_tp16 (clock := clock) (log := log) (input := input) (s := ⟨ctx, out, 0, 0, []⟩) g.wf rfl
          (by rw [e]; exact hi) (by rw [ho]; simp [tpOutputSize, h6])
        have hst : tpHandler G clock log scratch input ctx.step = tp16 clock log input := by rw [h6]; rfl
        rw [← hst] at hw
        obtain ⟨s, hs, rfl, rfl⟩ := tpNext_elim G h hw hr
        have hC : Complaints ctx.n.toNat s.ctx := by
          rcases hs with hs | hs
          · exact hs.2.1
          · exact hs.2.1
        have hn : (after ctx.step r s.ctx).n = ctx.n := by
          have := (keep_tpNext G hr).1.n
          exact this
        obtain ⟨s'', hs'', e'', _⟩ := tpNext_elim G h (step_tpHandler G ⟨ctx, out, 0, 0, []⟩) hr
        have hs'' : StepRel ⟨ctx, out, 0, 0, []⟩ s'' := hs''.elim id id
        have hstep : s''.ctx.step = s.ctx.step := by
          have := congrArg TP.prev e''
          exact this.symm
        unfold StepRel at hs''
        rw [hstep] at hs''
        dsimp only at hs''
        unfold after at h7
        rw [if_pos h6] at h7
        dsimp only at h7
        refine ⟨?_, ?_⟩
        · show s.ctx.complaintsLen ≠ 0
          intro hz
          rw [if_pos hz] at h7
          omega
        · rw [hn]
          exact ⟨hC.nodup, hC.range, hC.len⟩
      · have hne : input.length ≠ inputOf ctx * ctx.n.toNat ∨ out.length ≠ tpOutputSize ctx := by
          by_contra hc
          rw [not_or, not_not, not_not] at hc
          exact hlen hc
        have hsz : tpInputSize ctx = .ok (inputOf ctx * ctx.n.toNat) :=
          tpInputSize_eq (by omega) (by have := g.wf.n_pos; omega)
        have hw := wp_wrong G (clock := clock) (log := log) (scratch := scratch) (s := ⟨ctx, out, 0, 0, []⟩) h
          hsz hne
        obtain ⟨s, hs, rfl, rfl⟩ := tpNext_elim G h hw hr
        rcases hs with ⟨_, rfl⟩ | hs
        · exfalso
          unfold after at h7
          rw [if_pos h6] at h7
          dsimp only at h7
          rw [if_pos (g.early (by omega)), h6] at h7
          omega
        · cases hs
    · obtain ⟨s, hs, rfl, rfl⟩ := tpNext_elim G h (complaints_tpHandler G ⟨ctx, out, 0, 0, []⟩ h6) hr
      have hs : Same (fun c => (c.complaintsLen, c.complaints)) ⟨ctx, out, 0, 0, []⟩ s := hs.elim id id
      have hc : s.ctx.complaintsLen = ctx.complaintsLen := congrArg Prod.fst hs
      obtain ⟨s', hs', e', _⟩ := tpNext_elim G h (step_tpHandler G ⟨ctx, out, 0, 0, []⟩) hr
      have hs' : StepRel ⟨ctx, out, 0, 0, []⟩ s' := hs'.elim id id
      have hstep : s'.ctx.step = s.ctx.step := by
        have := congrArg TP.prev e'
        exact this.symm
      unfold StepRel at hs'
      rw [hstep] at hs'
      dsimp only at hs'
      have hst : (after ctx.step r s.ctx).step = 99 ∨ (after ctx.step r s.ctx).step = ctx.step + 1 ∨
          (after ctx.step r s.ctx).step = 100 := by
        unfold after
        dsimp only
        rw [if_neg h6]
        split <;> omega
      refine ⟨wf, fun hle => ?_, fun h7 => ?_⟩
      · show s.ctx.complaintsLen = 0
        rw [hc]
        exact g.early (by omega)
      · omega
  · rw [tpNext_ended G (by omega)] at hr
    cases hr
    exact g

theorem Reachable.good {c : TP} (h : Reachable G c) : Good c := by
  induction h with
  | start h h1 h2 h3 h4 h5 h6 h7 hb => exact (good_start h h1 h2 h3 h4 h5 h6 h7 hb).1
  | next _ h ih => exact good_next G ih h

/-! ## Successful calls -/

/-- A call that gets past the tests of the lengths has buffers of the announced lengths. -/
theorem tpNext_lengths {clock : ℕ → UInt64} {log : Bool} {scratch : B32} {ctx c : TP} {input out o : Bytes} {r : Int}
    (g : Good ctx) (h9 : ctx.step ≤ 9) (hr : tpNext G clock log scratch ctx input out = .ok (r, c, o)) (h1 : r ≠ 1)
    (h2 : r ≠ 2) :
    input.length = (if ctx.step = 7 then off18 ctx.known ctx.n.toNat else inputOf ctx * ctx.n.toNat) ∧
      out.length = tpOutputSize ctx := by
  by_contra hc
  rw [not_and_or] at hc
  have hw := wp_wrong G (s := ⟨ctx, out, 0, 0, []⟩) (clock := clock) (log := log) (scratch := scratch) (input := input)
    h9 (tpInputSize_good g) hc
  obtain ⟨s, hE | hQ, _, _⟩ := tpNext_elim G h9 hw hr
  · rcases hE.1 with h | h
    · exact h1 h
    · exact h2 h
  · exact hQ

omit [Signing] [Hashes] [NoiseCrypto] [Mac] in
theorem slice_flatten {g : ℕ → Bytes} {sz m k : ℕ} (hg : ∀ k < m, (g k).length = sz) (hk : k < m) :
    slice ((List.range m).map g).flatten (k * sz) sz = g k := by
  induction m with
  | zero => omega
  | succ m ih =>
    have hl : ((List.range m).map g).flatten.length = m * sz := by
      rw [List.length_flatten, List.map_map]
      have : (List.range m).map (List.length ∘ g) = List.replicate m sz := by
        rw [List.eq_replicate_iff]
        refine ⟨by simp, ?_⟩
        intro b hb
        simp only [List.mem_map, List.mem_range, Function.comp_apply] at hb
        obtain ⟨a, ha, rfl⟩ := hb
        exact hg a (by omega)
      rw [this, List.sum_replicate, smul_eq_mul]
    rw [List.range_succ, List.map_append, List.flatten_append, List.map_singleton, List.flatten_singleton]
    unfold slice at *
    rcases Nat.lt_succ_iff_lt_or_eq.1 hk with h | rfl
    · have h2 : (k + 1) * sz ≤ m * sz := Nat.mul_le_mul_right _ h
      rw [Nat.add_mul, Nat.one_mul] at h2
      rw [List.drop_append_of_le_length (by omega), List.take_append_of_le_length (by rw [List.length_drop, hl]; omega)]
      exact ih (fun k hk => hg k (by omega)) h
    · rw [List.drop_append, hl, List.drop_of_length_le (by omega), Nat.sub_self, List.nil_append, List.drop_zero,
        List.take_of_length_le (by rw [hg k (by omega)])]

omit [Hashes] [NoiseCrypto] [Mac] in
/-- An accepted message is authentic. -/
theorem Result.authentic {clock : ℕ → UInt64} {input : Bytes} {c : TP} {e : Exp} (h : Result clock input c e 0)
    (hb : e.off + e.len ≤ input.length) (hl : 111 ≤ e.len) :
    Authentic (slice input e.off e.len) e.len e.msgno (idx e.i) e.rcp e.pk c.sid := by
  obtain ⟨k, last, last', m, _, h⟩ := h
  obtain ⟨sig, hd, body, he⟩ := exists_fields hb hl
  rw [recvMsg_encode hb hl he] at h
  simp only [C.ok.injEq] at h
  have h0 : (recvPure (clock k) sig hd e.len e.msgno (idx e.i) e.rcp e.pk c.sid c.eps last).1 = 0 := by rw [h]
  refine ⟨sig, hd, body, he, ?_⟩
  unfold recvPure at h0
  repeat' split at h0
  all_goals simp_all

end Verif.TpDkg
