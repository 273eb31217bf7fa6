import Verif.Model.FuzzTp
import Verif.Proofs.FuzzLoop

/-!
# What the trusted party built for fuzzing keeps
-/

set_option linter.unusedSectionVars false

namespace Verif.TpDkg

open Wire

/-- The parameters, the step and the size of the output stay. -/
def Stays (s s' : Run) : Prop :=
  s'.ctx.step = s.ctx.step ∧ s'.ctx.n = s.ctx.n ∧ s'.ctx.t = s.ctx.t ∧ s'.out.length = s.out.length

/-- A handler keeps them, whether it returns early or not. -/
def Fixes {α : Type} (m : H Run α) : Prop := ∀ s x s', m s = .ok (x, s') → Stays s s'

theorem Stays.refl (s : Run) : Stays s s := ⟨rfl, rfl, rfl, rfl⟩

theorem Stays.trans {a b c : Run} (h : Stays a b) (h' : Stays b c) : Stays a c :=
  ⟨h'.1.trans h.1, h'.2.1.trans h.2.1, h'.2.2.1.trans h.2.2.1, h'.2.2.2.trans h.2.2.2⟩

namespace Fixes

variable {α β : Type}

theorem bind {m : H Run α} {f : α → H Run β} (hm : Fixes m) (hf : ∀ a, Fixes (f a)) : Fixes (m >>= f) := by
  intro s x s' h
  change H.bind m f s = _ at h
  unfold H.bind at h
  split at h
  · rename_i a s1 e
    exact (hm _ _ _ e).trans (hf a _ _ _ h)
  · rename_i a s1 e
    cases h
    exact hm _ _ _ e
  · cases h

theorem pure (a : α) : Fixes (Pure.pure a : H Run α) := by
  intro s x s' h
  cases h
  exact .refl s

theorem ret (r : Int) : Fixes (H.ret r : H Run α) := by
  intro s x s' h
  cases h
  exact .refl s

theorem get : Fixes (H.get : H Run Run) := by
  intro s x s' h
  cases h
  exact .refl s

theorem lift (x : C α) : Fixes (H.lift x : H Run α) := by
  intro s y s' h
  unfold H.lift at h
  cases x with
  | ub e => cases h
  | ok a => cases h; exact .refl s

theorem modify {f : Run → Run} (hf : ∀ s, Stays s (f s)) : Fixes (H.modify f) := by
  intro s y s' h
  cases h
  exact hf s

theorem loop {f : ℕ → H Run Unit} (hf : ∀ i, Fixes (f i)) : ∀ m i, Fixes (H.loop f m i)
  | 0, _ => by unfold H.loop; exact pure ()
  | m + 1, i => by unfold H.loop; exact (hf i).bind fun _ => loop hf m (i + 1)

theorem forN {n : ℕ} {f : ℕ → H Run Unit} (hf : ∀ i, Fixes (f i)) : Fixes (H.forN n f) := loop hf n 0

theorem ctx {f : TP → TP} (h : ∀ c, (f c).step = c.step ∧ (f c).n = c.n ∧ (f c).t = c.t) : Fixes (TpDkg.setCtx f) :=
  modify fun s => ⟨(h s.ctx).1, (h s.ctx).2.1, (h s.ctx).2.2, rfl⟩

theorem setW (w : ℕ) : Fixes (H.modify fun s => { s with w := w }) := modify fun _ => ⟨rfl, rfl, rfl, rfl⟩

end Fixes

open Fixes

/-- A write of as many bytes as there are in the output that was read. -/
theorem fixes_write {g : Run → C Bytes} {f : Run → Bytes → Run} (hg : ∀ s o, g s = .ok o → o.length = s.out.length)
    (hf : ∀ s o, o.length = s.out.length → Stays s (f s o)) :
    Fixes (do
      let s ← H.get
      let o ← H.lift (g s)
      H.modify fun s => f s o) := by
  intro s x s' h
  change H.bind H.get (fun s => H.bind (H.lift (g s)) fun o => H.modify fun s => f s o) s = _ at h
  unfold H.bind H.get at h
  dsimp only at h
  unfold H.lift at h
  cases e : g s with
  | ub u => rw [e] at h; cases h
  | ok o =>
    rw [e] at h
    cases h
    exact hf s o (hg s o e)

theorem fixes_dump (log : Bool) (buf : Bytes) (off len : ℕ) : Fixes (dump log buf off len) := by
  unfold dump
  split
  · exact (lift _).bind fun _ => pure ()
  · exact pure ()

theorem fixes_addCheater (step error : Int) (peer other : UInt8) (code : Int) :
    Fixes (addCheater step error peer other code) := by
  unfold addCheater addCheaterIx
  refine get.bind fun s => ?_
  split
  · exact ret _
  · exact (lift _).bind fun _ => (lift _).bind fun _ => ctx fun _ => ⟨rfl, rfl, rfl⟩

theorem fixes_noCheaters (code : Int) : Fixes (noCheaters code) := by
  unfold noCheaters
  refine get.bind fun s => ?_
  split
  · exact ret _
  · exact pure ()

theorem fixes_recv (input : Bytes) (off len : ℕ) (msgno frm rcp : UInt8) : Fixes (tpRecvF input off len msgno frm rcp) :=
  get.bind fun _ => lift _

theorem fixes_copyOut (input : Bytes) (off len : ℕ) : Fixes (copyOut input off len) := by
  intro s x s' h
  change H.bind H.get (fun s => H.bind (H.lift (rd input off len)) fun m => H.bind (H.lift (wr s.out s.w m)) fun o =>
    H.modify fun s => { s with out := o, w := s.w + len }) s = _ at h
  unfold H.bind H.get H.lift at h
  dsimp only at h
  cases e : rd input off len with
  | ub u => rw [e] at h; cases h
  | ok m =>
    rw [e] at h
    dsimp only at h
    cases e2 : wr s.out s.w m with
    | ub u => rw [e2] at h; cases h
    | ok o =>
      rw [e2] at h
      cases h
      exact ⟨rfl, rfl, rfl, wr_length e2⟩

theorem fixes_setSigPk (i : ℕ) (pk : B32) : Fixes (setSigPk i pk) :=
  get.bind fun _ => (lift _).bind fun _ => ctx fun _ => ⟨rfl, rfl, rfl⟩

theorem fixes_setCommitments (off : ℕ) (data : List B32) : Fixes (setCommitments off data) :=
  get.bind fun _ => (lift _).bind fun _ => ctx fun _ => ⟨rfl, rfl, rfl⟩

theorem fixes_keepShares (input : Bytes) : Fixes (keepShares input) :=
  get.bind fun _ => (lift _).bind fun _ => ctx fun _ => ⟨rfl, rfl, rfl⟩

theorem fixes_transcript : Fixes tpTranscript := modify fun _ => ⟨rfl, rfl, rfl, rfl⟩

variable [Signing] [Hashes]

theorem sendMsg_length {now : UInt64} {buf buf' : Bytes} {off len : ℕ} {msgno frm rcp : UInt8} {sk : B64} {sid : B32}
    (h : sendMsg now buf off len msgno frm rcp sk sid = .ok buf') : buf'.length = buf.length := by
  unfold sendMsg at h
  obtain ⟨b1, h1, h⟩ := C.bind_eq_ok.1 h
  obtain ⟨b2, h2, h⟩ := C.bind_eq_ok.1 h
  obtain ⟨b3, h3, h⟩ := C.bind_eq_ok.1 h
  obtain ⟨b4, h4, h⟩ := C.bind_eq_ok.1 h
  obtain ⟨b5, h5, h⟩ := C.bind_eq_ok.1 h
  obtain ⟨b6, h6, h⟩ := C.bind_eq_ok.1 h
  obtain ⟨hdr, -, h⟩ := C.bind_eq_ok.1 h
  rw [wr_length h, wr_length h6, wr_length h5, wr_length h4, wr_length h3, wr_length h2, wr_length h1]

theorem fixes_send (clock : ℕ → UInt64) (off len : ℕ) (msgno rcp : UInt8) : Fixes (tpSend clock off len msgno rcp) :=
  fixes_write (f := fun s out => { s with out, ctx := { s.ctx with ticks := s.ctx.ticks + 1 } })
    (fun _ _ h => sendMsg_length h) fun _ _ h => ⟨rfl, rfl, rfl, h⟩

theorem fixes_tp1 (clock : ℕ → UInt64) (log : Bool) (input : Bytes) : Fixes (tp1 clock log input) := by
  unfold tp1
  refine get.bind fun s => ?_
  split
  · exact ret _
  split
  · exact ret _
  refine (forN fun i => ?_).bind fun _ => pure _
  exact (fixes_send _ _ _ _ _).bind fun _ => get.bind fun _ => fixes_dump _ _ _ _

theorem fixes_tp4F (clock : ℕ → UInt64) (log : Bool) (input : Bytes) : Fixes (tp4F clock log input) := by
  unfold tp4F
  refine get.bind fun s => ?_
  dsimp only
  split
  · exact ret _
  split
  · exact ret _
  refine (setW _).bind fun _ => (forN fun i => ?_).bind fun _ => (fixes_noCheaters _).bind fun _ =>
    (fixes_send _ _ _ _ _).bind fun _ => fixes_transcript.bind fun _ => pure _
  unfold tp4BodyF
  refine (fixes_dump _ _ _ _).bind fun _ => (lift _).bind fun _ => (fixes_recv _ _ _ _ _ _).bind fun _ => ?_
  split
  · exact fixes_addCheater _ _ _ _ _
  · exact (fixes_setSigPk _ _).bind fun _ => fixes_copyOut _ _ _

theorem fixes_tp68F (log : Bool) (input : Bytes) : Fixes (tp68F log input) := by
  unfold tp68F
  refine get.bind fun s => ?_
  dsimp only
  split
  · exact ret _
  split
  · exact ret _
  refine (setW _).bind fun _ => (forN fun i => forN fun j => ?_).bind fun _ =>
    (fixes_noCheaters _).bind fun _ => pure _
  unfold tp68BodyF
  refine (fixes_recv _ _ _ _ _ _).bind fun _ => ?_
  split
  · refine (fixes_addCheater _ _ _ _ _).bind fun _ => ?_
    split
    · exact lift _
    · exact fixes_dump _ _ _ _
  · exact fixes_copyOut _ _ _

theorem fixes_tp12F (clock : ℕ → UInt64) (log : Bool) (input : Bytes) : Fixes (tp12F clock log input) := by
  unfold tp12F
  refine get.bind fun s => ?_
  dsimp only
  split
  · exact ret _
  split
  · exact ret _
  refine (setW _).bind fun _ => (forN fun i => ?_).bind fun _ => (fixes_noCheaters _).bind fun _ =>
    (fixes_send _ _ _ _ _).bind fun _ => fixes_transcript.bind fun _ => pure _
  unfold tp12BodyF
  refine (fixes_dump _ _ _ _).bind fun _ => (fixes_recv _ _ _ _ _ _).bind fun _ => ?_
  split
  · exact fixes_addCheater _ _ _ _ _
  · exact (lift _).bind fun _ => (fixes_setCommitments _ _).bind fun _ => fixes_copyOut _ _ _

theorem fixes_tp14F (log : Bool) (input : Bytes) : Fixes (tp14F log input) := by
  unfold tp14F
  refine get.bind fun s => ?_
  dsimp only
  split
  · exact ret _
  split
  · exact ret _
  refine (setW _).bind fun _ => (forN fun i => forN fun j => ?_).bind fun _ =>
    (fixes_noCheaters _).bind fun _ => (fixes_keepShares _).bind fun _ => pure _
  unfold tp14BodyF
  refine (fixes_dump _ _ _ _).bind fun _ => (fixes_recv _ _ _ _ _ _).bind fun _ => ?_
  split
  · exact fixes_addCheater _ _ _ _ _
  · exact fixes_copyOut _ _ _

variable (G : Type) [Ristretto G] [NoiseCrypto]

theorem tpNextF_keeps {clock : ℕ → UInt64} {log : Bool} {scratch : B32} {c c' : TP} {input out o : Bytes} (h5 : c.step ≤ 5)
    (h : tpNextF G clock log scratch c input out = .ok (0, c', o)) :
    c'.prev = c.step ∧ c'.step = c.step + 1 ∧ c'.n = c.n ∧ c'.t = c.t ∧ o.length = out.length := by
  have hf : Fixes (tpHandlerF G clock log scratch input c.step) := by
    obtain ⟨k, hk⟩ : ∃ k, c.step = k := ⟨_, rfl⟩
    rw [hk] at h5 ⊢
    match k, h5 with
    | 0, _ => exact fixes_tp1 _ _ _
    | 1, _ => exact fixes_tp4F _ _ _
    | 2, _ => exact fixes_tp68F _ _
    | 3, _ => exact fixes_tp68F _ _
    | 4, _ => exact fixes_tp12F _ _ _
    | 5, _ => exact fixes_tp14F _ _
  unfold tpNextF at h
  rw [if_neg (by omega)] at h
  obtain ⟨⟨r, s⟩, hr, h⟩ := C.bind_eq_ok.1 h
  dsimp only at h
  rw [if_neg (by omega)] at h
  have hs : Stays ⟨c, out, 0, 0, []⟩ s := by
    unfold H.result at hr
    split at hr
    · rename_i e; cases hr; exact hf _ _ _ e
    · rename_i e; cases hr; exact hf _ _ _ e
    · cases hr
  obtain ⟨h1, h2, h3, h4⟩ := hs
  cases h
  refine ⟨h1, ?_, h2, h3, h4⟩
  dsimp only
  rw [if_neg (by simp), h1]

end Verif.TpDkg
