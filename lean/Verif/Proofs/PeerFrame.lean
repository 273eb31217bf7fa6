import Verif.Proofs.Peer

/-!
# What the steps of a peer leave unchanged

`Keep f` relates states in which `f` of the context and the length of the output buffer agree. The hypotheses of a rule
list the fields that the step may change.
-/

set_option linter.unusedSectionVars false

namespace Verif.TpDkg.Peer

open H Wire

variable {α : Type}

/-- `f` of the context and the length of the output buffer do not change. -/
def Keep (f : PeerState → α) (s s' : PRun) : Prop := f s'.ctx = f s.ctx ∧ s'.out.length = s.out.length

theorem keep_refl (f : PeerState → α) (s : PRun) : Keep f s s := ⟨rfl, rfl⟩

theorem keep_trans (f : PeerState → α) (a b c : PRun) (h : Keep f a b) (h' : Keep f b c) : Keep f a c :=
  ⟨h'.1.trans h.1, h'.2.trans h.2⟩

theorem st_length {β : Type} {buf buf' : List β} {i : ℕ} {a : β} (h : st buf i a = .ok buf') :
    buf'.length = buf.length := by
  unfold st at h
  split at h
  · cases h; simp
  · cases h

/-- `f` does not depend on the clock, the timestamps of the trusted party and the contents of the table of timestamps. -/
structure Stamps (f : PeerState → α) : Prop where
  tp : ∀ c x k, f { c with tpLastTs := x, ticks := k } = f c
  ts : ∀ c x k, x.length = c.lastTs.length → f { c with lastTs := x, ticks := k } = f c

section

variable {f : PeerState → α} (F : Stamps f)

omit F in
theorem pres_dump (log : Bool) (buf : Bytes) (off len : ℕ) : Pres (Keep f) (fun _ => True) (dump log buf off len) := by
  unfold dump
  exact pres_ite (fun _ => pres_bind (keep_trans f) (pres_lift' (keep_refl f)) fun _ _ => pres_pure (keep_refl f) trivial)
    fun _ => pres_pure (keep_refl f) trivial

omit F in
theorem pres_dumpOut (log : Bool) (off len : ℕ) : Pres (Keep f) (fun _ => True) (dumpOut log off len) :=
  pres_bind (keep_trans f) (pres_get (keep_refl f)) fun _ _ => pres_dump _ _ _ _

omit F in
theorem pres_setCtx {g : PeerState → PeerState} (h : ∀ c, f (g c) = f c) : Pres (Keep f) (fun _ => True) (setCtx g) :=
  pres_modify fun s => ⟨h s.ctx, rfl⟩

omit F in
theorem pres_sigPkOf (i : ℕ) : Pres (Keep f) (fun _ => True) (sigPkOf i) :=
  pres_bind (keep_trans f) (pres_get (keep_refl f)) fun _ _ => pres_lift' (keep_refl f)

omit F in
theorem pres_getDev : Pres (Keep f) (fun _ => True) getDev := by
  refine pres_bind (keep_trans f) (pres_get (keep_refl f)) fun s _ =>
    pres_bind (keep_trans f) (pres_lift' (keep_refl f)) fun x _ => ?_
  cases x with
  | none => exact pres_ub
  | some d => exact pres_pure (keep_refl f) trivial

omit F in
theorem pres_setOut (off : ℕ) (b : Bytes) : Pres (Keep f) (fun _ => True) (setOut off b) := by
  intro s
  unfold setOut
  rw [wp_bind, wp_get, wp_bind]
  refine wp_lift_of trivial fun o ho => ?_
  rw [wp_modify]
  exact ⟨⟨rfl, wr_length ho⟩, trivial⟩

omit F in
theorem pres_copy (off : ℕ) (m : Option Bytes) : Pres (Keep f) (fun _ => True) (copy off m) := by
  cases m with
  | none => exact pres_pure (keep_refl f) trivial
  | some m => exact pres_setOut off m

omit F in
theorem pres_setOuts (h : ∀ c x, x.length = c.outs.length → f { c with outs := x } = f c) (i : ℕ)
    (p : Ptr Noise.Session) : Pres (Keep f) (fun _ => True) (setOuts i p) := by
  intro s
  unfold setOuts
  rw [wp_bind, wp_get, wp_bind]
  refine wp_lift_of trivial fun l hl => ?_
  rw [wp_setCtx]
  exact ⟨⟨h _ _ (st_length hl), rfl⟩, trivial⟩

omit F in
theorem pres_setIns (h : ∀ c x, x.length = c.ins.length → f { c with ins := x } = f c) (i : ℕ)
    (p : Ptr Noise.Session) : Pres (Keep f) (fun _ => True) (setIns i p) := by
  intro s
  unfold setIns
  rw [wp_bind, wp_get, wp_bind]
  refine wp_lift_of trivial fun l hl => ?_
  rw [wp_setCtx]
  exact ⟨⟨h _ _ (st_length hl), rfl⟩, trivial⟩

omit F in
theorem pres_setKeys (h : ∀ c x y, x.length = c.sigPks.length → y.length = c.noisePks.length →
    f { c with sigPks := x, noisePks := y } = f c) (i : ℕ) (pk npk : B32) :
    Pres (Keep f) (fun _ => True) (setKeys i pk npk) := by
  intro s
  unfold setKeys
  rw [wp_bind, wp_get, wp_bind]
  refine wp_lift_of trivial fun l hl => ?_
  rw [wp_bind]
  refine wp_lift_of trivial fun l' hl' => ?_
  rw [wp_setCtx]
  exact ⟨⟨h _ _ _ (st_length hl) (st_length hl'), rfl⟩, trivial⟩

omit F in
theorem pres_setCommitments (h : ∀ c x, x.length = c.commitments.length → f { c with commitments := x } = f c) (off : ℕ)
    (d : List B32) : Pres (Keep f) (fun _ => True) (setCommitments off d) := by
  intro s
  unfold setCommitments
  rw [wp_bind, wp_get, wp_bind]
  refine wp_lift_of trivial fun l hl => ?_
  rw [wp_setCtx]
  exact ⟨⟨h _ _ (wr_length hl), rfl⟩, trivial⟩

omit F in
theorem pres_setXshare (h : ∀ c x, x.length = c.xshares.length → f { c with xshares := x } = f c) (i : ℕ)
    (x : Share) : Pres (Keep f) (fun _ => True) (setXshare i x) := by
  intro s
  unfold setXshare
  rw [wp_bind, wp_get, wp_bind]
  refine wp_lift_of trivial fun l hl => ?_
  rw [wp_setCtx]
  exact ⟨⟨h _ _ (st_length hl), rfl⟩, trivial⟩

omit F in
theorem pres_addComplaint (h : ∀ c x k, x.length = c.complaints.length →
    f { c with complaints := x, complaintsLen := k } = f c) (p : UInt16) :
    Pres (Keep f) (fun _ => True) (addComplaint p) := by
  intro s
  unfold addComplaint
  rw [wp_bind, wp_get, wp_bind]
  refine wp_lift_of trivial fun l hl => ?_
  rw [wp_setCtx]
  exact ⟨⟨h _ _ _ (st_length hl), rfl⟩, trivial⟩

omit F in
theorem pres_addMine (h : ∀ c x k, x.length = c.mine.length → f { c with mine := x, myLen := k } = f c) (p : UInt8) :
    Pres (Keep f) (fun _ => True) (addMine p) := by
  intro s
  unfold addMine
  rw [wp_bind, wp_get, wp_bind]
  refine wp_lift_of trivial fun l hl => ?_
  rw [wp_setCtx]
  exact ⟨⟨h _ _ _ (st_length hl), rfl⟩, trivial⟩

include F

variable [Signing]

theorem pres_recvTp (clock : ℕ → UInt64) (input : Bytes) (msgno rcp : UInt8) :
    Pres (Keep f) (fun r => 0 ≤ r ∧ r ≤ 7) (recvTp clock input msgno rcp) := by
  intro s
  unfold recvTp
  rw [wp_bind, wp_get, wp_bind]
  refine wp_lift_of trivial fun x hx => ?_
  obtain ⟨r, last, k⟩ := x
  dsimp only
  rw [wp_bind, wp_setCtx, wp_pure]
  exact ⟨⟨F.tp _ _ _, rfl⟩, recvMsg_range hx⟩

theorem pres_recv (clock : ℕ → UInt64) (input : Bytes) (off len : ℕ) (msgno rcp : UInt8) (pk : B32) (i : ℕ) :
    Pres (Keep f) (fun r => 0 ≤ r ∧ r ≤ 7) (recv clock input off len msgno rcp pk i) := by
  intro s
  unfold recv
  rw [wp_bind, wp_get, wp_bind]
  refine wp_lift_of trivial fun last hl => ?_
  rw [wp_bind]
  refine wp_lift_of trivial fun x hx => ?_
  obtain ⟨r, last, k⟩ := x
  dsimp only
  rw [wp_bind]
  refine wp_lift_of trivial fun lt hlt => ?_
  rw [wp_bind, wp_setCtx, wp_pure]
  exact ⟨⟨F.ts _ _ _ (st_length hlt), rfl⟩, recvMsg_range hx⟩

theorem pres_send (clock : ℕ → UInt64) (off len : ℕ) (msgno rcp : UInt8) :
    Pres (Keep f) (fun _ => True) (send clock off len msgno rcp) := by
  intro s
  unfold send
  rw [wp_bind, wp_get, wp_bind]
  refine wp_lift_of trivial fun o ho => ?_
  rw [wp_modify]
  refine ⟨⟨F.tp _ _ _, ?_⟩, trivial⟩
  unfold sendMsg at ho
  simp only [C.bind_eq_ok] at ho
  obtain ⟨b1, h1, b2, h2, b3, h3, b4, h4, b5, h5, b6, h6, b7, h7, h8⟩ := ho
  rw [wr_length h8, wr_length h6, wr_length h5, wr_length h4, wr_length h3, wr_length h2, wr_length h1]

set_option hygiene false in
/-- Applies the rules for `Pres (Keep f)` as far as possible. -/
macro "ppres" "[" ts:term,* "]" : tactic => do
  let alts ← ts.getElems.mapM fun t => `(tactic| exact $t)
  `(tactic| repeat' first
  | (first $[| $alts:tactic]*)
  | with_reducible exact pres_ret (keep_refl f) _
  | with_reducible exact pres_dump _ _ _ _
  | with_reducible exact pres_dumpOut _ _ _
  | with_reducible exact pres_sigPkOf _
  | with_reducible exact pres_getDev
  | with_reducible exact pres_recvTp F _ _ _ _
  | with_reducible exact pres_recv F _ _ _ _ _ _ _ _
  | with_reducible exact pres_send F _ _ _ _ _
  | with_reducible exact pres_setOut _ _
  | with_reducible exact pres_copy _ _
  | with_reducible exact pres_get (keep_refl f)
  | with_reducible exact pres_pure (V := fun _ => True) (keep_refl f) trivial
  | with_reducible exact pres_pure (keep_refl f) rfl
  | with_reducible exact pres_ub
  | with_reducible exact pres_lift' (keep_refl f)
  | with_reducible refine pres_ite (fun hc => ?_) fun hc => ?_
  | with_reducible refine pres_forN (keep_refl f) (keep_trans f) fun i hi => ?_
  | with_reducible apply pres_bind (keep_trans f)
  | intro a ha
  | split)

variable [Hashes] [NoiseCrypto] {clock : ℕ → UInt64} {log mlock : Bool} {rnd : Rnd} {input : Bytes} {scratch : B32}

theorem pres_step23 (hk : ∀ c a b d e g, f { c with index := a, sigPk := b, sigSk := d, noiseSk := e, noisePk := g } = f c)
    (hl : ∀ c x, f { c with ltSk := x } = f c) : Pres (Keep f) (fun r => r = 0) (step23 clock log rnd input) := by
  unfold step23
  ppres [pres_setCtx fun c => hk c _ _ _ _ _, pres_setCtx fun c => hl c _]

theorem pres_step5 (htr : ∀ c x, f { c with transcript := x } = f c) (hd : ∀ c x, f { c with dev := x } = f c)
    (ho : ∀ c x, x.length = c.outs.length → f { c with outs := x } = f c)
    (hk : ∀ c x y, x.length = c.sigPks.length → y.length = c.noisePks.length →
      f { c with sigPks := x, noisePks := y } = f c) :
    Pres (Keep f) (fun r => r = 0) (step5 clock log rnd input) := by
  unfold step5 step5Body initSession transcript
  ppres [pres_setCtx fun c => htr c _, pres_setCtx fun c => hd c _, pres_setOuts ho _ _, pres_setKeys hk _ _ _]

theorem pres_step7 (hd : ∀ c x, f { c with dev := x } = f c)
    (ho : ∀ c x, x.length = c.ins.length → f { c with ins := x } = f c) :
    Pres (Keep f) (fun r => r = 0) (step7 clock log rnd input) := by
  unfold step7 step7Body respondSession
  ppres [pres_setCtx fun c => hd c _, pres_setIns ho _ _]

variable [Mac] (G : Type) [Ristretto G]

omit F [Signing] [Hashes] [NoiseCrypto] [Mac] in
theorem shareLoop_length {a : List B32} {n : UInt8} : ∀ {fuel : ℕ} {i : UInt8} {ss ss' : List Share},
    forLeU8 (Dkg.shareStep a) n fuel i ss = .ok ss' → ss'.length = ss.length
  | 0, _, _, _, h => by cases h
  | fuel + 1, i, ss, ss', h => by
    unfold forLeU8 at h
    split at h
    · rw [C.bind_eq_ok] at h
      obtain ⟨x, hx, h⟩ := h
      rw [shareLoop_length h]
      unfold Dkg.shareStep at hx
      split at hx
      · cases hx
      rw [C.bind_eq_ok] at hx
      obtain ⟨y, _, hx⟩ := hx
      exact st_length hx
    · cases h; rfl

omit F [Signing] [Hashes] [NoiseCrypto] [Mac] in
theorem dkg_start_length {n t : UInt8} {coeff : ℕ → B32} {c0 : List B32} {s0 : List Share} {r : Int} {cs : List B32}
    {ss : List Share} (h : Dkg.start G mlock n t coeff c0 s0 = .ok (r, cs, ss)) : ss.length = s0.length := by
  unfold Dkg.start at h
  split at h
  · cases h
  split at h
  · cases h; rfl
  rw [C.bind_eq_ok] at h
  obtain ⟨_, _, h⟩ := h
  rw [C.bind_eq_ok] at h
  obtain ⟨x, hx, h⟩ := h
  cases h
  exact shareLoop_length hx

/-- The part of step 9 that deals the shares. -/
theorem pres_deal (hs : ∀ c x, x.length = c.shares.length → f { c with shares := x } = f c) (t : UInt8) :
    Pres (Keep f) (fun r : Int => r = 0) (do
      let s ← H.get
      let (ret, cs, shares) ← H.lift (Dkg.start G mlock s.ctx.n t rnd.coeff (List.replicate t.toNat zero32) s.ctx.shares)
      if ret ≠ 0 then H.ret 4
      else
        setCtx fun ctx => { ctx with shares }
        setOut hdrSize (flat cs)
        send clock 0 (msg6Size t) 6 0xff
        dumpOut log 0 (msg6Size t)
        pure 0) := by
  intro s
  rw [wp_bind, wp_get, wp_bind]
  refine wp_lift_of trivial fun x hx => ?_
  obtain ⟨r, cs, ss⟩ := x
  dsimp only
  rw [wp_ite]
  refine ⟨fun _ => keep_refl f s, fun _ => ?_⟩
  rw [wp_bind, wp_setCtx]
  have h1 : Keep f s { s with ctx := { s.ctx with shares := ss } } := ⟨hs _ _ (dkg_start_length G hx), rfl⟩
  have h2 : Pres (Keep f) (fun r : Int => r = 0) (do
      setOut hdrSize (flat cs)
      send clock 0 (msg6Size t) 6 0xff
      dumpOut log 0 (msg6Size t)
      pure 0) := by ppres []
  exact (h2 { s with ctx := { s.ctx with shares := ss } }).mono id (fun _ _ h => keep_trans f _ _ _ h1 h) fun _ _ h => ⟨keep_trans f _ _ _ h1 h.1, h.2⟩

theorem pres_step911 (ho : ∀ c x, x.length = c.outs.length → f { c with outs := x } = f c)
    (hs : ∀ c x, x.length = c.shares.length → f { c with shares := x } = f c) :
    Pres (Keep f) (fun r => r = 0) (step911 G clock log mlock rnd input) := by
  unfold step911 step911Body finishSession
  ppres [pres_setOuts ho _ _, pres_deal F G hs _]

omit F in
theorem pres_encrypt (ho : ∀ c x, x.length = c.outs.length → f { c with outs := x } = f c) (p : Bytes) (off l i : ℕ)
    (code : Int) : Pres (Keep f) (fun _ => True) (encrypt p off l i code) := by
  unfold encrypt
  ppres [pres_setOuts ho _ _]

omit F in
theorem pres_commitKey (off i : ℕ) : Pres (Keep f) (fun _ => True) (commitKey off i) := by
  unfold commitKey
  ppres []

omit F in
theorem pres_decrypt (ho : ∀ c x, x.length = c.ins.length → f { c with ins := x } = f c) (p : Bytes) (l i : ℕ)
    (code : Int) : Pres (Keep f) (fun _ => True) (decrypt p l i code) := by
  unfold decrypt
  ppres [pres_setIns ho _ _]

theorem pres_step13 (htr : ∀ c x, f { c with transcript := x } = f c)
    (ho : ∀ c x, x.length = c.outs.length → f { c with outs := x } = f c)
    (hcc : ∀ c x, x.length = c.commitments.length → f { c with commitments := x } = f c) :
    Pres (Keep f) (fun r => r = 0) (step13 clock log input) := by
  unfold step13 step13Body transcript
  ppres [pres_setCtx fun c => htr c _, pres_encrypt ho _ _ _ _ _, pres_commitKey _ _,
    pres_setCommitments hcc _ _]

theorem pres_step15 (ho : ∀ c x, x.length = c.ins.length → f { c with ins := x } = f c)
    (hcc : ∀ c x, x.length = c.xshares.length → f { c with xshares := x } = f c) :
    Pres (Keep f) (fun r => r = 0) (step15 G clock log scratch input) := by
  unfold step15 step15Body
  ppres [pres_decrypt ho _ _ _ _, pres_setXshare hcc _ _]

theorem pres_step17 (htr : ∀ c x, f { c with transcript := x } = f c) (hst : ∀ c x y, f { c with prev := x, step := y } = f c)
    (hcc : ∀ c x k, x.length = c.complaints.length → f { c with complaints := x, complaintsLen := k } = f c)
    (hm : ∀ c x k, x.length = c.mine.length → f { c with mine := x, myLen := k } = f c) :
    Pres (Keep f) (fun r => r = 0) (step17 clock log input) := by
  unfold step17 step17Body step17Inner transcript
  ppres [pres_setCtx fun c => htr c _, pres_setCtx fun c => hst c _ _, pres_addComplaint hcc _, pres_addMine hm _]

theorem pres_step17a (hst : ∀ c x, f { c with step := x } = f c) :
    Pres (Keep f) (fun r => r = 0) (step17a clock log input) := by
  unfold step17a step17aBody
  ppres [pres_setCtx fun c => hst c _]

theorem pres_step19 : Pres (Keep f) (fun r => r = 0) (step19 clock log input) := by
  unfold step19
  ppres []

theorem pres_step21 (hs : ∀ c x, f { c with share := x } = f c) :
    Pres (Keep f) (fun r => r = 0) (step21 clock log input) := by
  unfold step21
  ppres [pres_setCtx fun c => hs c _]

end

end Verif.TpDkg.Peer
