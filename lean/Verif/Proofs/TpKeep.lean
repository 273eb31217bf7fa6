import Verif.Proofs.Tp

/-!
# What a call of the trusted party keeps
-/

set_option linter.unusedSectionVars false

namespace Verif.TpDkg

open H Wire Spec.Wire

/-- The parameters, keys and buffer sizes stay, the log only grows by reports with `P`. -/
structure Keep (P : Cheater → Prop) (c c' : TP) : Prop where
  n : c'.n = c.n
  t : c'.t = c.t
  sid : c'.sid = c.sid
  sigPk : c'.sigPk = c.sigPk
  sigSk : c'.sigSk = c.sigSk
  eps : c'.eps = c.eps
  ltPks : c'.ltPks = c.ltPks
  cheaterMax : c'.cheaterMax = c.cheaterMax
  prev : c'.prev = c.prev
  lastTs : c'.lastTs.length = c.lastTs.length
  sigPks : c'.sigPks.length = c.sigPks.length
  commitments : c'.commitments.length = c.commitments.length
  encShares : c'.encShares.length = c.encShares.length
  complaints : c'.complaints.length = c.complaints.length
  cheaters : c'.cheaters.length = c.cheaters.length
  ticks : c.ticks ≤ c'.ticks
  grow : ∃ new, (∀ x ∈ new, P x) ∧ c'.cheaterLen = c.cheaterLen + new.length ∧ c'.log = c.log ++ new
  room : c.cheaterLen ≤ c.cheaterMax → c'.cheaterLen ≤ c'.cheaterMax

namespace Keep

variable {P : Cheater → Prop} {a b c : TP}

theorem refl (c : TP) : Keep P c c := by
  constructor <;> first | rfl | exact ⟨[], by simp⟩ | exact id

theorem trans (h : Keep P a b) (h' : Keep P b c) : Keep P a c := by
  obtain ⟨new, h1, h2, h3⟩ := h.grow
  obtain ⟨new', h1', h2', h3'⟩ := h'.grow
  constructor
  case grow =>
    refine ⟨new ++ new', ?_, ?_, ?_⟩
    · intro x hx
      rcases List.mem_append.1 hx with hx | hx
      · exact h1 x hx
      · exact h1' x hx
    · rw [h2', h2, List.length_append]; omega
    · rw [h3', h3, List.append_assoc]
  case ticks => exact Nat.le_trans h.ticks h'.ticks
  case room => exact fun hr => h'.room (h.room hr)
  case n => rw [h'.n, h.n]
  case t => rw [h'.t, h.t]
  case sid => rw [h'.sid, h.sid]
  case sigPk => rw [h'.sigPk, h.sigPk]
  case sigSk => rw [h'.sigSk, h.sigSk]
  case eps => rw [h'.eps, h.eps]
  case ltPks => rw [h'.ltPks, h.ltPks]
  case cheaterMax => rw [h'.cheaterMax, h.cheaterMax]
  case prev => rw [h'.prev, h.prev]
  case lastTs => rw [h'.lastTs, h.lastTs]
  case sigPks => rw [h'.sigPks, h.sigPks]
  case commitments => rw [h'.commitments, h.commitments]
  case encShares => rw [h'.encShares, h.encShares]
  case complaints => rw [h'.complaints, h.complaints]
  case cheaters => rw [h'.cheaters, h.cheaters]

theorem mono {P' : Cheater → Prop} (h : Keep P a b) (hp : ∀ x, P x → P' x) : Keep P' a b :=
  { h with grow := by obtain ⟨new, h1, h2⟩ := h.grow; exact ⟨new, fun x hx => hp x (h1 x hx), h2⟩ }

theorem any (h : Keep P a b) : Keep (fun _ => True) a b := h.mono fun _ _ => trivial

end Keep

theorem log_report {c : TP} {x : Cheater} (h : c.cheaterLen < c.cheaters.length) :
    (report c x).log = c.log ++ [x] := by
  unfold report TP.log
  simp only [List.take_add_one, List.getElem?_set_self h, Option.toList_some, List.take_set_of_le (Nat.le_refl _)]

theorem keep_report {P : Cheater → Prop} {c : TP} {x : Cheater} (hP : P x) (h1 : c.cheaterLen < c.cheaterMax)
    (h2 : c.cheaterLen < c.cheaters.length) : Keep P c (report c x) := by
  constructor
  case grow => exact ⟨[x], by simpa using hP, rfl, log_report h2⟩
  case room => exact fun _ => h1
  case cheaters => simp [report]
  case ticks => exact Nat.le_refl _
  all_goals rfl

/-- Kept during a call. -/
def KeepRun (P : Cheater → Prop) (s s' : Run) : Prop := Keep P s.ctx s'.ctx ∧ s'.out.length = s.out.length

theorem keepRun_frame (P : Cheater → Prop) : Frame P (KeepRun P) where
  refl s := ⟨Keep.refl _, rfl⟩
  trans a b c h h' := ⟨h.1.trans h'.1, h'.2.trans h.2⟩
  recv s l k hl hk := by
    refine ⟨?_, rfl⟩
    constructor
    case grow => exact ⟨[], by simp [TP.log]⟩
    case lastTs => exact hl
    case ticks => exact hk
    case room => exact id
    all_goals rfl
  cheat s c hP h1 h2 := ⟨keep_report hP h1 h2, rfl⟩
  out s o w ho := ⟨Keep.refl _, ho⟩
  loc s l r := ⟨Keep.refl _, rfl⟩

theorem Frame.and {P : Cheater → Prop} {R R' : Run → Run → Prop} (F : Frame P R) (F' : Frame P R') :
    Frame P (fun s s' => R s s' ∧ R' s s') where
  refl s := ⟨F.refl s, F'.refl s⟩
  trans a b c h h' := ⟨F.trans a b c h.1 h'.1, F'.trans a b c h.2 h'.2⟩
  recv s l k hl hk := ⟨F.recv s l k hl hk, F'.recv s l k hl hk⟩
  cheat s c hP h1 h2 := ⟨F.cheat s c hP h1 h2, F'.cheat s c hP h1 h2⟩
  out s o w ho := ⟨F.out s o w ho, F'.out s o w ho⟩
  loc s l r := ⟨F.loc s l r, F'.loc s l r⟩

/-- A function of the context is kept. -/
def Same {κ : Type} (K : TP → κ) (s s' : Run) : Prop := K s'.ctx = K s.ctx

theorem same_frame {P : Cheater → Prop} {κ : Type} {K : TP → κ}
    (h1 : ∀ c l k, K { c with lastTs := l, ticks := k } = K c) (h2 : ∀ c x, K (report c x) = K c) :
    Frame P (Same K) where
  refl s := rfl
  trans a b c h h' := Eq.trans h' h
  recv s l k _ _ := h1 _ _ _
  cheat s c _ _ _ := h2 _ _
  out s o w _ := rfl
  loc s l r := rfl

/-- The records that a step of the protocol can add. -/
inductive Recordable : ℕ → Cheater → Prop
  | recv4 (i r k) (hi : i < 255) (hr : RecvCode r) : Recordable 1 ⟨4, 64 + r, idx i, 0xff, k⟩
  | recv6 (i j r k) (hi : i < 255) (hj : j < 255) (hr : RecvCode r) : Recordable 2 ⟨8, 64 + r, idx j, idx i, k⟩
  | recv8 (i j r k) (hi : i < 255) (hj : j < 255) (hr : RecvCode r) : Recordable 3 ⟨10, 64 + r, idx j, idx i, k⟩
  | recv12 (i r k) (hi : i < 255) (hr : RecvCode r) : Recordable 4 ⟨12, 64 + r, idx i, 0xff, k⟩
  | recv14 (i j r k) (hi : i < 255) (hj : j < 255) (hr : RecvCode r) : Recordable 5 ⟨14, 64 + r, idx j, idx i, k⟩
  | recv16 (i r k) (hi : i < 255) (hr : RecvCode r) : Recordable 6 ⟨16, 64 + r, idx i, 0xff, k⟩
  | range16 (i x k) (hi : i < 255) : Recordable 6 ⟨16, 7, idx i, x, k⟩
  | dup16 (i x k) (hi : i < 255) : Recordable 6 ⟨16, 8, idx i, x, k⟩
  | many16 (k) : Recordable 6 ⟨16, 6, 0xfe, 0xfe, k⟩
  | recv18 (i r k) (hi : i < 255) (hr : RecvCode r) : Recordable 7 ⟨18, 32 + r, idx i, 0xfe, k⟩
  | verdict18 (i c) (hi : i < 255) (h : Verdict (idx i) c) : Recordable 7 c
  | rest18 (a b k) : Recordable 7 ⟨18, 7, a, b, k⟩
  | recv20 (i r k) (hi : i < 255) (hr : RecvCode r) : Recordable 8 ⟨20, 1 + r, idx i, 0, k⟩
  | mismatch20 (i k) (hi : i < 255) : Recordable 8 ⟨20, 1, idx i, 0, k⟩
  | recv22 (i r k) (hi : i < 255) (hr : RecvCode r) : Recordable 9 ⟨22, 64 + r, idx i, 0, k⟩

variable [Signing] [Hashes] (G : Type) [Ristretto G] [NoiseCrypto] [Mac]

theorem keep_tpHandler {clock : ℕ → UInt64} {log : Bool} {scratch : B32} {input : Bytes} (s : Run) :
    Wp (tpHandler G clock log scratch input s.ctx.step) True (fun _ s' => KeepRun (Recordable s.ctx.step) s s')
      (fun _ s' => KeepRun (Recordable s.ctx.step) s s') s := by
  have hR : ∀ P, Frame P (KeepRun P) := keepRun_frame
  have e : ∀ {m : H Run Int} {R : Run → Run → Prop} {V : Int → Prop},
      Wp m True (fun _ s' => R s s') (fun a s' => R s s' ∧ V a) s →
      Wp m True (fun _ s' => R s s') (fun _ s' => R s s') s :=
    fun h => h.mono id (fun _ _ h => h) fun _ _ h => h.1
  unfold tpHandler
  split
  · exact e (pres_tp1 (hR _) _ _ _ s)
  · rename_i h
    rw [h]
    refine e (pres_tp4 (hR _) ?_ ?_ ?_ s)
    · exact fun i hi r k hr => .recv4 i r k hi hr
    · intro s l hl
      refine ⟨?_, rfl⟩
      constructor
      case grow => exact ⟨[], by simp [TP.log]⟩
      case sigPks => exact hl
      case room => exact id
      case ticks => exact Nat.le_refl _
      all_goals rfl
    · intro s tr
      exact ⟨{ Keep.refl s.ctx with }, rfl⟩
  · rename_i h
    refine e (pres_tp68 (hR _) s ?_)
    intro i hi j hj r k hr
    rw [h]
    exact .recv6 i j r k hi hj hr
  · rename_i h
    refine e (pres_tp68 (hR _) s ?_)
    intro i hi j hj r k hr
    rw [h]
    exact .recv8 i j r k hi hj hr
  · rename_i h
    rw [h]
    refine e (pres_tp12 (hR _) ?_ ?_ ?_ s)
    · exact fun i hi r k hr => .recv12 i r k hi hr
    · intro s l hl
      refine ⟨?_, rfl⟩
      constructor
      case grow => exact ⟨[], by simp [TP.log]⟩
      case commitments => exact hl
      case room => exact id
      case ticks => exact Nat.le_refl _
      all_goals rfl
    · intro s tr
      exact ⟨{ Keep.refl s.ctx with }, rfl⟩
  · rename_i h
    rw [h]
    refine e (pres_tp14 (hR _) ?_ ?_ s)
    · exact fun i hi j hj r k hr => .recv14 i j r k hi hj hr
    · intro s l hl
      refine ⟨?_, rfl⟩
      constructor
      case grow => exact ⟨[], by simp [TP.log]⟩
      case encShares => exact hl
      case room => exact id
      case ticks => exact Nat.le_refl _
      all_goals rfl
  · rename_i h
    rw [h]
    refine e (pres_tp16 (hR _) ?_ ?_ ?_ ?_ ?_ ?_ s)
    · exact fun i hi r k hr => .recv16 i r k hi hr
    · exact fun i hi x k => .range16 i x k hi
    · exact fun i hi x k => .dup16 i x k hi
    · exact fun k => .many16 k
    · intro s l k hl
      refine ⟨?_, rfl⟩
      constructor
      case grow => exact ⟨[], by simp [TP.log]⟩
      case complaints => exact hl
      case room => exact id
      case ticks => exact Nat.le_refl _
      all_goals rfl
    · intro s tr
      exact ⟨{ Keep.refl s.ctx with }, rfl⟩
  · rename_i h
    rw [h]
    refine e (pres_tp18 (hR _) G ?_ ?_ ?_ ?_ s)
    · exact fun i hi c hc => .verdict18 i c hi hc
    · exact fun i hi r k hr => .recv18 i r k hi hr
    · exact fun a b k => .rest18 a b k
    · intro s
      exact ⟨{ Keep.refl s.ctx with }, rfl⟩
  · rename_i h
    rw [h]
    refine e (pres_tp20 (hR _) ?_ ?_ ?_ s)
    · exact fun i hi r k hr => .recv20 i r k hi hr
    · exact fun i hi k => .mismatch20 i k hi
    · intro s
      exact ⟨{ Keep.refl s.ctx with }, rfl⟩
  · rename_i h
    rw [h]
    exact e (pres_tp22 (hR _) (fun i hi r k hr => .recv22 i r k hi hr) s)
  · exact ⟨Keep.refl _, rfl⟩

end Verif.TpDkg
