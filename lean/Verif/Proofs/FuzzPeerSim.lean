import Verif.Model.FuzzPeer
import Verif.Proofs.Tp
import Verif.Props.FuzzRecv

/-!
# The peers built for fuzzing follow those built for use
-/

set_option linter.unusedSectionVars false

namespace Verif.TpDkg.Peer

open Wire

/-- The states differ at most in the time stamps and in the number of calls of `time`. -/
def Twin (s f : PRun) : Prop :=
  ∃ (a : UInt64) (l : List UInt64) (k : ℕ), f = { s with ctx := { s.ctx with tpLastTs := a, lastTs := l, ticks := k } }

theorem Twin.refl (s : PRun) : Twin s s := ⟨s.ctx.tpLastTs, s.ctx.lastTs, s.ctx.ticks, rfl⟩

/-- The second computation does what the first one does if that does not return early, and an early return is not 0. -/
def Follows {α : Type} (m mF : H PRun α) : Prop := ∀ s f, Twin s f →
  match m s with
  | .ub _ => True
  | .ok (.error e, _) => e ≠ 0
  | .ok (.ok a, s') => ∃ f', mF f = .ok (.ok a, f') ∧ Twin s' f'

namespace Follows

variable {α β : Type}

theorem bind {m mF : H PRun α} {k kF : α → H PRun β} (hm : Follows m mF) (hk : ∀ a, Follows (k a) (kF a)) :
    Follows (m >>= k) (mF >>= kF) := by
  intro s f hr
  have h := hm s f hr
  have e0 : (m >>= k) s = H.bind m k s := rfl
  have e1 : (mF >>= kF) f = H.bind mF kF f := rfl
  rw [e0, e1]
  unfold H.bind
  cases e : m s with
  | ub u => trivial
  | ok p =>
    obtain ⟨r, s1⟩ := p
    rw [e] at h
    cases r with
    | error c => exact h
    | ok a =>
      obtain ⟨f1, ef, hr1⟩ := h
      rw [ef]
      exact hk a s1 f1 hr1

theorem pure (a : α) : Follows (Pure.pure a : H PRun α) (Pure.pure a) := fun _ f hr => ⟨f, rfl, hr⟩

theorem ret {r : Int} (h : r ≠ 0) (mF : H PRun α) : Follows (H.ret r : H PRun α) mF := fun _ _ _ => h

theorem lift (x : C α) : Follows (H.lift x : H PRun α) (H.lift x) := by
  intro s f hr
  unfold H.lift
  cases x with
  | ub u => trivial
  | ok a => exact ⟨f, rfl, hr⟩

theorem get_bind {k kF : PRun → H PRun α} (h : ∀ s f, Twin s f → Follows (k s) (kF f)) :
    Follows (H.get >>= k) (H.get >>= kF) := fun s f hr => h s f hr s f hr

theorem get_left {k : PRun → H PRun α} {mF : H PRun α} (h : ∀ s, Follows (k s) mF) : Follows (H.get >>= k) mF :=
  fun s f hr => h s s f hr

theorem lift_left {x : C β} {k : β → H PRun α} {mF : H PRun α} (h : ∀ b, Follows (k b) mF) : Follows (H.lift x >>= k) mF := by
  cases x with
  | ub u => exact fun _ _ _ => trivial
  | ok b => exact fun s f hr => h b s f hr

theorem modify {g : PRun → PRun} (h : ∀ s f, Twin s f → Twin (g s) (g f)) : Follows (H.modify g) (H.modify g) :=
  fun s f hr => ⟨_, rfl, h s f hr⟩

/-- An update of the state that does not look at the time stamps. -/
theorem ctx {g : PeerState → PeerState} (h : ∀ c a l k, g { c with tpLastTs := a, lastTs := l, ticks := k } =
    { g c with tpLastTs := a, lastTs := l, ticks := k }) : Follows (setCtx g) (setCtx g) :=
  modify fun s f => by
    rintro ⟨a, l, k, rfl⟩
    refine ⟨a, l, k, ?_⟩
    dsimp only
    rw [h]

theorem loop {f fF : ℕ → H PRun Unit} (h : ∀ i, Follows (f i) (fF i)) : ∀ m i, Follows (H.loop f m i) (H.loop fF m i)
  | 0, _ => by unfold H.loop; exact pure ()
  | m + 1, i => by unfold H.loop; exact (h i).bind fun _ => loop h m (i + 1)

theorem forN {n : ℕ} {f fF : ℕ → H PRun Unit} (h : ∀ i, Follows (f i) (fF i)) : Follows (H.forN n f) (H.forN n fF) :=
  loop h n 0

theorem dump (log : Bool) (buf : Bytes) (off len : ℕ) : Follows (Peer.dump log buf off len) (Peer.dump log buf off len) := by
  unfold Peer.dump
  split
  · exact (lift _).bind fun _ => pure ()
  · exact pure ()

theorem dumpOut (log : Bool) (off len : ℕ) : Follows (Peer.dumpOut log off len) (Peer.dumpOut log off len) := by
  refine get_bind ?_
  rintro s _ ⟨a, l, k, rfl⟩
  exact dump _ _ _ _

theorem setOut (off : ℕ) (b : Bytes) : Follows (Peer.setOut off b) (Peer.setOut off b) := by
  refine get_bind ?_
  rintro s _ ⟨a, l, k, rfl⟩
  refine (lift _).bind fun o => modify ?_
  rintro s _ ⟨a, l, k, rfl⟩
  exact ⟨a, l, k, rfl⟩

theorem copy (off : ℕ) (m : Option Bytes) : Follows (Peer.copy off m) (Peer.copy off m) := by
  cases m with
  | none => exact pure ()
  | some m => exact setOut _ _

theorem transcript (input : Bytes) : Follows (Peer.transcript input) (Peer.transcript input) := ctx fun _ _ _ _ => rfl

theorem getDev : Follows Peer.getDev Peer.getDev := by
  refine get_bind ?_
  rintro s _ ⟨a, l, k, rfl⟩
  refine (lift _).bind fun d => ?_
  cases d with
  | none => exact lift _
  | some d => exact pure _

theorem setOuts (i : ℕ) (p : Ptr Noise.Session) : Follows (Peer.setOuts i p) (Peer.setOuts i p) := by
  refine get_bind ?_
  rintro s _ ⟨a, l, k, rfl⟩
  exact (lift _).bind fun _ => ctx fun _ _ _ _ => rfl

theorem setIns (i : ℕ) (p : Ptr Noise.Session) : Follows (Peer.setIns i p) (Peer.setIns i p) := by
  refine get_bind ?_
  rintro s _ ⟨a, l, k, rfl⟩
  exact (lift _).bind fun _ => ctx fun _ _ _ _ => rfl

theorem setKeys (i : ℕ) (pk npk : B32) : Follows (Peer.setKeys i pk npk) (Peer.setKeys i pk npk) := by
  refine get_bind ?_
  rintro s _ ⟨a, l, k, rfl⟩
  exact (lift _).bind fun _ => (lift _).bind fun _ => ctx fun _ _ _ _ => rfl

theorem setCommitments (off : ℕ) (d : List B32) : Follows (Peer.setCommitments off d) (Peer.setCommitments off d) := by
  refine get_bind ?_
  rintro s _ ⟨a, l, k, rfl⟩
  exact (lift _).bind fun _ => ctx fun _ _ _ _ => rfl

theorem setXshare (i : ℕ) (x : Share) : Follows (Peer.setXshare i x) (Peer.setXshare i x) := by
  refine get_bind ?_
  rintro s _ ⟨a, l, k, rfl⟩
  exact (lift _).bind fun _ => ctx fun _ _ _ _ => rfl

theorem addComplaint (p : UInt16) : Follows (Peer.addComplaint p) (Peer.addComplaint p) := by
  refine get_bind ?_
  rintro s _ ⟨a, l, k, rfl⟩
  exact (lift _).bind fun _ => ctx fun _ _ _ _ => rfl

theorem addMine (i : UInt8) : Follows (Peer.addMine i) (Peer.addMine i) := by
  refine get_bind ?_
  rintro s _ ⟨a, l, k, rfl⟩
  exact (lift _).bind fun _ => ctx fun _ _ _ _ => rfl

section
variable [Signing] [Hashes] [NoiseCrypto]

theorem initSession (rpk epriv : B32) (i off : ℕ) : Follows (Peer.initSession rpk epriv i off) (Peer.initSession rpk epriv i off) := by
  refine getDev.bind fun dv => get_bind ?_
  rintro s _ ⟨a, l, k, rfl⟩
  exact (lift _).bind fun _ => (ctx fun _ _ _ _ => rfl).bind fun _ => (setOuts _ _).bind fun _ => copy _ _

theorem respondSession (epriv : B32) (m : Bytes) (i off : ℕ) :
    Follows (Peer.respondSession epriv m i off) (Peer.respondSession epriv m i off) :=
  getDev.bind fun _ => (ctx fun _ _ _ _ => rfl).bind fun _ => (setIns _ _).bind fun _ => copy _ _

theorem finishSession (log : Bool) (m : Bytes) (i : ℕ) : Follows (Peer.finishSession log m i) (Peer.finishSession log m i) := by
  refine getDev.bind fun dv => get_bind ?_
  rintro s _ ⟨a, l, k, rfl⟩
  exact (lift _).bind fun _ => (lift _).bind fun _ => setOuts _ _

theorem encrypt (input : Bytes) (off len i : ℕ) {code : Int} (hc : code ≠ 0) :
    Follows (Peer.encrypt input off len i code) (Peer.encrypt input off len i code) := by
  refine get_bind ?_
  rintro s _ ⟨a, l, k, rfl⟩
  refine (lift _).bind fun _ => (lift _).bind fun p => (setOuts _ _).bind fun _ => ?_
  split
  · exact ret hc _
  · exact copy _ _

theorem decrypt (input : Bytes) (len i : ℕ) {code : Int} (hc : code ≠ 0) :
    Follows (Peer.decrypt input len i code) (Peer.decrypt input len i code) := by
  refine getDev.bind fun dv => get_bind ?_
  rintro s _ ⟨a, l, k, rfl⟩
  refine (lift _).bind fun _ => (lift _).bind fun p => (setIns _ _).bind fun _ => ?_
  split
  · exact ret hc _
  · exact pure _

theorem commitKey [Mac] (off i : ℕ) : Follows (Peer.commitKey off i) (Peer.commitKey off i) := by
  refine get_bind ?_
  rintro s _ ⟨a, l, k, rfl⟩
  exact (lift _).bind fun _ => (lift _).bind fun _ => (lift _).bind fun _ => setOut _ _

end

variable [Signing] [Hashes]

theorem send (now : UInt64) (off len : ℕ) (msgno rcp : UInt8) :
    Follows (Peer.send (fun _ => now) off len msgno rcp) (Peer.send (fun _ => now) off len msgno rcp) := by
  refine get_bind ?_
  rintro s _ ⟨a, l, k, rfl⟩
  refine (lift _).bind fun o => modify ?_
  rintro s _ ⟨a, l, k, rfl⟩
  exact ⟨a, l, k + 1, rfl⟩

/-- Two ways to receive, the second of which accepts what the first one accepts. -/
theorem receive {m mF : H PRun Int} {k kF : Int → H PRun α}
    (hm : ∀ s x, m s = x → (∃ u, x = .ub u) ∨ ∃ r s', x = .ok (.ok r, s') ∧ Twin s s' ∧ 0 ≤ r ∧
      (r = 0 → ∀ f, Twin s f → mF f = .ok (.ok 0, f)))
    (hbad : ∀ r, 0 < r → ∀ mF, Follows (k r) mF) (hgood : Follows (k 0) (kF 0)) : Follows (m >>= k) (mF >>= kF) := by
  intro s f hr
  have e0 : (m >>= k) s = H.bind m k s := rfl
  rw [e0]
  unfold H.bind
  rcases hm s _ rfl with ⟨u, e⟩ | ⟨r, s', e, ht, hp, h0⟩
  · rw [e]; trivial
  · rw [e]
    dsimp only
    obtain ⟨a, l, k0, rfl⟩ := hr
    obtain ⟨a', l', k', rfl⟩ := ht
    by_cases hz : r = 0
    · subst hz
      have e1 : ∀ f, Twin s f → (mF >>= kF) f = kF 0 f := by
        intro f hf
        change H.bind mF kF f = _
        unfold H.bind
        rw [h0 rfl f hf]
      rw [e1 _ ⟨a, l, k0, rfl⟩]
      exact hgood _ _ ⟨a, l, k0, rfl⟩
    · exact hbad r (by omega) (mF >>= kF) _ _ ⟨a, l, k0, rfl⟩

theorem recvTp {clock : ℕ → UInt64} {input : Bytes} {msgno rcp : UInt8} {k kF : Int → H PRun α}
    (hbad : ∀ r, 0 < r → ∀ mF, Follows (k r) mF) (hgood : Follows (k 0) (kF 0)) :
    Follows (Peer.recvTp clock input msgno rcp >>= k) (recvTpF input msgno rcp >>= kF) := by
  refine receive (fun s x hx => ?_) hbad hgood
  change H.bind H.get (fun s => H.bind (H.lift (recvMsg (clock s.ctx.ticks) input 0 input.length msgno 0 rcp s.ctx.tpSigPk s.ctx.sid
    s.ctx.eps s.ctx.tpLastTs)) fun p => H.bind (setCtx fun ctx => { ctx with tpLastTs := p.2.1, ticks := ctx.ticks + p.2.2 }) fun _ =>
    Pure.pure p.1) s = x at hx
  unfold H.bind H.get H.lift at hx
  dsimp only at hx
  cases e2 : recvMsg (clock s.ctx.ticks) input 0 input.length msgno 0 rcp s.ctx.tpSigPk s.ctx.sid s.ctx.eps s.ctx.tpLastTs with
  | ub u => rw [e2] at hx; exact .inl ⟨u, hx.symm⟩
  | ok p =>
    obtain ⟨r, last', j⟩ := p
    rw [e2] at hx
    refine .inr ⟨r, _, hx.symm, ⟨_, _, _, rfl⟩, (recvMsg_range e2).1, ?_⟩
    rintro rfl f ⟨a, l, k, rfl⟩
    change H.lift (recvMsgFuzz input 0 input.length msgno 0 rcp s.ctx.sid) _ = _
    rw [Props.C108_accepts e2]
    rfl

theorem recv {clock : ℕ → UInt64} {input : Bytes} {off len : ℕ} {msgno rcp : UInt8} {pk : B32} {i : ℕ} {k kF : Int → H PRun α}
    (hbad : ∀ r, 0 < r → ∀ mF, Follows (k r) mF) (hgood : Follows (k 0) (kF 0)) :
    Follows (Peer.recv clock input off len msgno rcp pk i >>= k) (recvF input off len msgno rcp i >>= kF) := by
  refine receive (fun s x hx => ?_) hbad hgood
  change H.bind H.get (fun s => H.bind (H.lift (ld s.ctx.lastTs i)) fun last => H.bind (H.lift (recvMsg (clock s.ctx.ticks) input off
    len msgno (idx i) rcp pk s.ctx.sid s.ctx.eps last)) fun p => H.bind (H.lift (st s.ctx.lastTs i p.2.1)) fun lastTs =>
    H.bind (setCtx fun ctx => { ctx with lastTs, ticks := ctx.ticks + p.2.2 }) fun _ => Pure.pure p.1) s = x at hx
  unfold H.bind H.get H.lift at hx
  dsimp only at hx
  cases e1 : ld s.ctx.lastTs i with
  | ub u => rw [e1] at hx; exact .inl ⟨u, hx.symm⟩
  | ok last =>
    rw [e1] at hx
    dsimp only at hx
    cases e2 : recvMsg (clock s.ctx.ticks) input off len msgno (idx i) rcp pk s.ctx.sid s.ctx.eps last with
    | ub u => rw [e2] at hx; exact .inl ⟨u, hx.symm⟩
    | ok p =>
      obtain ⟨r, last', j⟩ := p
      rw [e2] at hx
      dsimp only at hx
      cases e3 : st s.ctx.lastTs i last' with
      | ub u => rw [e3] at hx; exact .inl ⟨u, hx.symm⟩
      | ok lastTs =>
        rw [e3] at hx
        refine .inr ⟨r, _, hx.symm, ⟨_, _, _, rfl⟩, (recvMsg_range e2).1, ?_⟩
        rintro rfl f ⟨a, l, k, rfl⟩
        change H.lift (recvMsgFuzz input off len msgno (idx i) rcp s.ctx.sid) _ = _
        rw [Props.C108_accepts e2]
        rfl

variable [NoiseCrypto]

theorem step23 (now : UInt64) (log : Bool) (rnd : Rnd) (input : Bytes) :
    Follows (Peer.step23 (fun _ => now) log rnd input) (step23F (fun _ => now) log rnd input) := by
  unfold Peer.step23 step23F
  refine get_bind ?_
  rintro s _ ⟨a, l, k, rfl⟩
  dsimp only
  split
  · exact ret (by decide) _
  split
  · exact ret (by decide) _
  refine (dump _ _ _ _).bind fun _ => (lift _).bind fun rcp => recvTp (fun r hr mF => ?_) ?_
  · rw [if_pos (by omega)]; exact ret (by omega) _
  · rw [if_neg (by simp)]
    split
    · exact ret (by decide) _
    refine (ctx fun _ _ _ _ => rfl).bind fun _ => (setOut _ _).bind fun _ => (setOut _ _).bind fun _ => (send _ _ _ _ _).bind fun _ =>
      get_bind ?_
    rintro s _ ⟨a, l, k, rfl⟩
    exact (lift _).bind fun _ => (setOut _ _).bind fun _ => (ctx fun _ _ _ _ => rfl).bind fun _ => (dumpOut _ _ _).bind fun _ => pure _

theorem step5 (now : UInt64) (log : Bool) (rnd : Rnd) (input : Bytes) :
    Follows (Peer.step5 (fun _ => now) log rnd input) (step5F (fun _ => now) log rnd input) := by
  unfold Peer.step5 step5F
  refine get_bind ?_
  rintro s _ ⟨a, l, k, rfl⟩
  dsimp only
  split
  · exact ret (by decide) _
  split
  · exact ret (by decide) _
  refine recvTp (fun r hr mF => ?_) ?_
  · rw [if_pos (by omega)]; exact ret (by omega) _
  rw [if_neg (by simp), if_neg (by simp)]
  refine (transcript _).bind fun _ => (ctx fun _ _ _ _ => rfl).bind fun _ => (forN fun i => ?_).bind fun _ => pure _
  unfold step5Body step5BodyF
  refine (dump _ _ _ _).bind fun _ => (lift _).bind fun pk => recv (fun r hr mF => ?_) ?_
  · rw [if_pos (by omega)]; exact ret (by omega) _
  · exact (lift _).bind fun _ => (setKeys _ _ _).bind fun _ => (initSession _ _ _ _).bind fun _ => (send _ _ _ _ _).bind fun _ =>
      dumpOut _ _ _

theorem step7 (now : UInt64) (log : Bool) (rnd : Rnd) (input : Bytes) :
    Follows (Peer.step7 (fun _ => now) log rnd input) (step7F (fun _ => now) log rnd input) := by
  unfold Peer.step7 step7F
  refine get_bind ?_
  rintro s _ ⟨a, l, k, rfl⟩
  dsimp only
  split
  · exact ret (by decide) _
  split
  · exact ret (by decide) _
  refine (forN fun i => ?_).bind fun _ => pure _
  unfold step7Body step7BodyF sigPkOf
  refine (dump _ _ _ _).bind fun _ => get_left fun _ => lift_left fun _ => get_bind ?_
  rintro s _ ⟨a, l, k, rfl⟩
  refine recv (fun r hr mF => ?_) ?_
  · rw [if_pos (by omega)]; exact ret (by omega) _
  · exact (lift _).bind fun _ => (respondSession _ _ _ _).bind fun _ => (send _ _ _ _ _).bind fun _ => dumpOut _ _ _

variable [Mac] (G : Type) [Ristretto G]

theorem step911 (now : UInt64) (log mlock : Bool) (rnd : Rnd) (input : Bytes) :
    Follows (Peer.step911 G (fun _ => now) log mlock rnd input) (step911F G (fun _ => now) log mlock rnd input) := by
  unfold Peer.step911 step911F
  refine get_bind ?_
  rintro s _ ⟨a, l, k, rfl⟩
  dsimp only
  split
  · exact ret (by decide) _
  split
  · exact ret (by decide) _
  refine (forN fun i => ?_).bind fun _ => get_bind ?_
  · unfold step911Body step911BodyF sigPkOf
    refine (dump _ _ _ _).bind fun _ => get_left fun _ => lift_left fun _ => get_bind ?_
    rintro s _ ⟨a, l, k, rfl⟩
    refine recv (fun r hr mF => ?_) ?_
    · rw [if_pos (by omega)]; exact ret (by omega) _
    · exact (lift _).bind fun _ => finishSession _ _ _
  · rintro s _ ⟨a, l, k, rfl⟩
    refine (lift _).bind fun p => ?_
    split
    · exact ret (by decide) _
    · exact (ctx fun _ _ _ _ => rfl).bind fun _ => (setOut _ _).bind fun _ => (send _ _ _ _ _).bind fun _ =>
        (dumpOut _ _ _).bind fun _ => pure _

theorem step13 (now : UInt64) (log : Bool) (input : Bytes) :
    Follows (Peer.step13 (fun _ => now) log input) (step13F (fun _ => now) log input) := by
  unfold Peer.step13 step13F
  refine get_bind ?_
  rintro s _ ⟨a, l, k, rfl⟩
  dsimp only
  split
  · exact ret (by decide) _
  split
  · exact ret (by decide) _
  refine (dump _ _ _ _).bind fun _ => recvTp (fun r hr mF => ?_) ?_
  · rw [if_pos (by omega)]; exact ret (by omega) _
  rw [if_neg (by simp), if_neg (by simp)]
  refine (transcript _).bind fun _ => (forN fun i => ?_).bind fun _ => pure _
  unfold step13Body step13BodyF sigPkOf
  refine (dump _ _ _ _).bind fun _ => get_left fun _ => lift_left fun _ => recv (fun r hr mF => ?_) ?_
  · rw [if_pos (by omega)]; exact ret (by decide) _
  · refine (lift _).bind fun _ => (setCommitments _ _).bind fun _ => (encrypt _ _ _ _ (by decide)).bind fun _ => get_bind ?_
    rintro s _ ⟨a, l, k, rfl⟩
    exact (lift _).bind fun _ => (encrypt _ _ _ _ (by decide)).bind fun _ => (commitKey _ _).bind fun _ => (send _ _ _ _ _).bind fun _ =>
      dumpOut _ _ _

theorem step15 (now : UInt64) (log : Bool) (scratch : B32) (input : Bytes) :
    Follows (Peer.step15 G (fun _ => now) log scratch input) (step15F G (fun _ => now) log scratch input) := by
  unfold Peer.step15 step15F
  refine get_bind ?_
  rintro s _ ⟨a, l, k, rfl⟩
  dsimp only
  split
  · exact ret (by decide) _
  split
  · exact ret (by decide) _
  refine (forN fun i => ?_).bind fun _ => get_bind ?_
  · unfold step15Body step15BodyF sigPkOf
    refine (dump _ _ _ _).bind fun _ => get_left fun _ => lift_left fun _ => get_bind ?_
    rintro s _ ⟨a, l, k, rfl⟩
    refine recv (fun r hr mF => ?_) ?_
    · rw [if_pos (by omega)]; exact ret (by omega) _
    · refine (lift _).bind fun _ => (decrypt _ _ _ (by decide)).bind fun _ => (lift _).bind fun _ => (lift _).bind fun _ => get_bind ?_
      rintro s _ ⟨a, l, k, rfl⟩
      refine (lift _).bind fun _ => (lift _).bind fun _ => ?_
      split
      · exact ret (by decide) _
      · exact (decrypt _ _ _ (by decide)).bind fun _ => setXshare _ _
  · rintro s _ ⟨a, l, k, rfl⟩
    exact (lift _).bind fun _ => (lift _).bind fun _ => (setOut _ _).bind fun _ => (setOut _ _).bind fun _ =>
      (dumpOut _ _ _).bind fun _ => (send _ _ _ _ _).bind fun _ => (dumpOut _ _ _).bind fun _ => pure _

theorem step17 (now : UInt64) (log : Bool) (input : Bytes) :
    Follows (Peer.step17 (fun _ => now) log input) (step17F log input) := by
  unfold Peer.step17 step17F
  refine get_bind ?_
  rintro s _ ⟨a, l, k, rfl⟩
  dsimp only
  split
  · exact ret (by decide) _
  split
  · exact ret (by decide) _
  refine (dump _ _ _ _).bind fun _ => recvTp (fun r hr mF => ?_) ?_
  · rw [if_pos (by omega)]; exact ret (by omega) _
  rw [if_neg (by simp), if_neg (by simp)]
  refine (transcript _).bind fun _ => (forN fun i => ?_).bind fun _ => get_bind ?_
  · unfold step17Body step17BodyF sigPkOf
    refine (dump _ _ _ _).bind fun _ => get_left fun _ => lift_left fun _ => recv (fun r hr mF => ?_) ?_
    · rw [if_pos (by omega)]; exact ret (by omega) _
    · refine (lift _).bind fun _ => (lift _).bind fun _ => ?_
      split
      · exact ret (by decide) _
      refine forN fun j => ?_
      unfold step17Inner
      refine (lift _).bind fun x => get_bind ?_
      rintro s _ ⟨a, l, k, rfl⟩
      refine (lift _).bind fun _ => ?_
      split
      · exact pure _
      refine (addComplaint _).bind fun _ => ?_
      dsimp only
      split
      · exact addMine _
      · exact pure _
  · rintro s _ ⟨a, l, k, rfl⟩
    dsimp only
    split
    · exact (ctx fun _ _ _ _ => rfl).bind fun _ => pure _
    · exact pure _

theorem step17a (now : UInt64) (log : Bool) (input : Bytes) :
    Follows (Peer.step17a (fun _ => now) log input) (Peer.step17a (fun _ => now) log input) := by
  unfold Peer.step17a
  refine get_bind ?_
  rintro s _ ⟨a, l, k, rfl⟩
  have e : peerOutputSize { s.ctx with tpLastTs := a, lastTs := l, ticks := k } = peerOutputSize s.ctx := rfl
  dsimp only
  rw [e]
  split
  · exact ret (by decide) _
  split
  · exact ret (by decide) _
  split
  · exact pure _
  refine (forN fun i => ?_).bind fun _ => (send _ _ _ _ _).bind fun _ => (dumpOut _ _ _).bind fun _ => (ctx fun _ _ _ _ => rfl).bind fun _ =>
    pure _
  unfold step17aBody
  refine get_bind ?_
  rintro s _ ⟨a, l, k, rfl⟩
  refine (lift _).bind fun c => (setOut _ _).bind fun _ => ?_
  split
  · exact lift _
  · exact (lift _).bind fun _ => (lift _).bind fun _ => setOut _ _

theorem step19 (now : UInt64) (log : Bool) (input : Bytes) :
    Follows (Peer.step19 (fun _ => now) log input) (Peer.step19 (fun _ => now) log input) := by
  unfold Peer.step19
  refine get_bind ?_
  rintro s _ ⟨a, l, k, rfl⟩
  dsimp only
  split
  · exact ret (by decide) _
  split
  · exact ret (by decide) _
  exact (setOut _ _).bind fun _ => (send _ _ _ _ _).bind fun _ => (dumpOut _ _ _).bind fun _ => pure _

theorem step21 (now : UInt64) (log : Bool) (input : Bytes) :
    Follows (Peer.step21 (fun _ => now) log input) (step21F (fun _ => now) log input) := by
  unfold Peer.step21 step21F
  refine get_bind ?_
  rintro s _ ⟨a, l, k, rfl⟩
  dsimp only
  split
  · exact ret (by decide) _
  split
  · exact ret (by decide) _
  refine (dump _ _ _ _).bind fun _ => recvTp (fun r hr mF => ?_) ?_
  · rw [if_pos (by omega)]; exact ret (by omega) _
  rw [if_neg (by simp)]
  refine (lift _).bind fun data => ?_
  split
  · refine get_bind ?_
    rintro s _ ⟨a, l, k, rfl⟩
    exact (lift _).bind fun _ => (ctx fun _ _ _ _ => rfl).bind fun _ => (setOut _ _).bind fun _ => (send _ _ _ _ _).bind fun _ =>
      (dumpOut _ _ _).bind fun _ => pure _
  · exact ret (by decide) _

theorem handler (now : UInt64) (log mlock : Bool) (scratch : B32) (rnd : Rnd) (input : Bytes) (step : ℕ) :
    Follows (Peer.handler G (fun _ => now) log mlock scratch rnd input step)
      (handlerF G (fun _ => now) log mlock scratch rnd input step) :=
  match step with
  | 0 => step23 now log rnd input
  | 1 => step5 now log rnd input
  | 2 => step7 now log rnd input
  | 3 => step911 G now log mlock rnd input
  | 4 => step13 now log input
  | 5 => step15 G now log scratch input
  | 6 => step17 now log input
  | 7 => step17a now log input
  | 8 => step19 now log input
  | 9 => step21 now log input
  | 10 => pure _
  | _ + 11 => pure _

end Follows

end Verif.TpDkg.Peer
