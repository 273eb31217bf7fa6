import Verif.Proofs.PeerMem
import Verif.Proofs.PeerSafe

/-!
# The Noise memory of a run of a peer: steps, calls and cleanup
-/

set_option linter.unusedSectionVars false

namespace Verif.TpDkg

open H Wire Noise Spec.PeerNoise Spec.PeerMem

variable [Signing] [Hashes] [NoiseCrypto] {clock : ℕ → UInt64} {log mlock : Bool} {scratch : B32} {rnd : Rnd}
  {input out : Bytes} {c : PeerState} {v : Vals}

/-- No device and no session. -/
structure Blank (c : PeerState) : Prop where
  dev : c.dev = .null
  outs : c.outs = List.replicate c.n.toNat .null
  ins : c.ins = List.replicate c.n.toNat .null

namespace Peer

/-- The whole program of a call. -/
def Done (c : PeerState) (v0 : Vals) (full : List Op) (P : Vals → Prop) (x : PeerState) : Prop :=
  ∃ os v, v0.run full = .ok (os, v) ∧ Holds c.n.toNat c.noiseSk v x ∧ P v

theorem Whole.done {v0 : Vals} {full : List Op} {P : Vals → Prop} {x : PeerState} (h : Whole c v0 full P x) :
    Done c v0 full P x := by
  obtain ⟨os, v, h1, h2, h3⟩ := h
  exact ⟨os, v, h1, h2.toHolds, h3⟩

theorem Whole.part {v0 : Vals} {full : List Op} {P : Vals → Prop} {x : PeerState} (h : Whole c v0 full P x) :
    Part c v0 full x := by
  obtain ⟨os, v, h1, h2, h3⟩ := h
  exact ⟨full, List.prefix_rfl, os, v, h1, h2.toHolds⟩

theorem mem5 (hb : Blank c) : Wp (step5 clock log rnd input) True
    (fun e s' => e ≠ 0 ∧ (mem s'.ctx = mem c ∨ Part c (Vals.new c.noiseSk (c.n.toNat + c.n.toNat))
      ((List.range c.n.toNat).flatMap fun i => [.init i i (toB32 (slice input (i * 175 + 254) 32)) (rnd.einit i)]) s'.ctx))
    (fun r s' => r = 0 ∧ Done c (Vals.new c.noiseSk (c.n.toNat + c.n.toNat))
      ((List.range c.n.toNat).flatMap fun i => [.init i i (toB32 (slice input (i * 175 + 254) 32)) (rnd.einit i)])
      (Fresh c.n.toNat c.n.toNat) s'.ctx) ⟨c, out⟩ := by
  unfold step5
  rw [wp_bind, wp_get]
  dsimp only
  rw [wp_ite]
  refine ⟨fun _ => ⟨by decide, .inl rfl⟩, fun _ => ?_⟩
  rw [wp_ite]
  refine ⟨fun _ => ⟨by decide, .inl rfl⟩, fun _ => ?_⟩
  rw [wp_bind]
  refine keepMem (pres_recvTp mem_stamps _ _ _ _) (by unfold recvTp setCtx; noret) fun r s1 h1 hr => ?_
  rw [wp_ite]
  refine ⟨fun h0 => ⟨by omega, .inl h1⟩, fun _ => ?_⟩
  unfold transcript
  rw [wp_bind, wp_setCtx, wp_bind, wp_setCtx, wp_bind]
  have hm : mem s1.ctx = mem c := h1
  simp only [mem, Prod.mk.injEq] at hm
  obtain ⟨e1, e2, e3, e4, e5, e6⟩ := hm
  have hrep : ∀ (j : ℕ) (p : Ptr Session), (List.replicate (c.n.toNat + c.n.toNat) Ptr.null)[j]? = some p → p = .null := by
    intro j p hp
    exact List.eq_of_mem_replicate (List.mem_of_getElem? hp)
  have := wp_each (c := c) (v0 := Vals.new c.noiseSk (c.n.toNat + c.n.toNat))
    (s := ⟨{ s1.ctx with transcript := updateTranscript s1.ctx.transcript input, dev := .live (deviceCreate prologue s1.ctx.noiseSk) }, s1.out⟩)
    (n := c.n.toNat)
    (f := fun i => [.init i i (toB32 (slice input (i * 175 + 254) 32)) (rnd.einit i)])
    (body := step5Body clock log rnd input)
    (P := fun i v => Fresh c.n.toNat i v ∧ v.dv.peers.length ≤ i)
    ⟨⟨by simp only [Vals.new]; rw [e4], by simp only [Vals.new]; rw [e2, e3, hb.outs, hb.ins, List.replicate_append_replicate],
      by simp only; rw [e2, hb.outs, List.length_replicate], by simp only; rw [e3, hb.ins, List.length_replicate], rfl, rfl, e4,
      by simp [Vals.new, deviceCreate]⟩, e5, e6⟩
    ⟨⟨fun j p _ hp => hrep j p hp, fun j p _ hp sn hs => by rw [hrep j p hp] at hs; cases hs⟩,
      by simp [Vals.new, deviceCreate]⟩
    (fun i hi v s h hf => mem5Body hi h hf)
  refine this.mono id (fun _ _ h => ⟨h.1, .inr h.2⟩) fun _ s' h => ⟨rfl, ?_⟩
  obtain ⟨os, v, h1, h2, h3⟩ := h
  exact ⟨os, v, h1, h2.toHolds, h3.1⟩

/-- What the sessions are after step 2. -/
structure Both (n : ℕ) (v : Vals) : Prop where
  opened : ∀ j p, j < n → v.slots[j]? = some p → p.Opened
  answered : Ans n v

theorem mem7 (h : At c v c) (hf : Fresh c.n.toNat c.n.toNat v) : Wp (step7 clock log rnd input) True
    (fun e s' => e ≠ 0 ∧ Part c v ((List.range c.n.toNat).flatMap fun i =>
      [.respond (c.n.toNat + i) (slice input (i * 159 + 111) 48) (rnd.eresp i)]) s'.ctx)
    (fun r s' => r = 0 ∧ Done c v ((List.range c.n.toNat).flatMap fun i =>
      [.respond (c.n.toNat + i) (slice input (i * 159 + 111) 48) (rnd.eresp i)]) (Both c.n.toNat) s'.ctx) ⟨c, out⟩ := by
  unfold step7
  rw [wp_bind, wp_get]
  dsimp only
  rw [wp_ite]
  refine ⟨fun _ => ⟨by decide, Part.nil h⟩, fun _ => ?_⟩
  rw [wp_ite]
  refine ⟨fun _ => ⟨by decide, Part.nil h⟩, fun _ => ?_⟩
  rw [wp_bind]
  have := wp_each (c := c) (v0 := v) (s := ⟨c, out⟩) (n := c.n.toNat)
    (f := fun i => [.respond (c.n.toNat + i) (slice input (i * 159 + 111) 48) (rnd.eresp i)])
    (body := step7Body clock log rnd input)
    (P := fun i v => (∀ j p, c.n.toNat + i ≤ j → v.slots[j]? = some p → p = .null) ∧
      (∀ j p, j < c.n.toNat → v.slots[j]? = some p → p.Opened) ∧ ∀ j p, c.n.toNat ≤ j → v.slots[j]? = some p → p.Answered)
    h ⟨fun j p hj hp => hf.null j p (by omega) hp, hf.opened, fun j p hj hp sn hs => by
      rw [hf.null j p hj hp] at hs; cases hs⟩
    (fun i hi v s h hf => mem7Body h hf)
  refine this.mono id (fun _ _ h => h) fun _ s' h => ⟨rfl, ?_⟩
  obtain ⟨os, v, h1, h2, h3⟩ := h
  exact ⟨os, v, h1, h2.toHolds, ⟨h3.2.1, h3.2.2⟩⟩

theorem mem911 [Mac] (G : Type) [Ristretto G] (h : At c v c) (hf : Both c.n.toNat v) :
    Wp (step911 G clock log mlock rnd input) True
    (fun e s' => e ≠ 0 ∧ Part c v ((List.range c.n.toNat).flatMap fun i =>
      [.finish log i (slice input (i * 159 + 111) 48)]) s'.ctx)
    (fun r s' => r = 0 ∧ Done c v ((List.range c.n.toNat).flatMap fun i =>
      [.finish log i (slice input (i * 159 + 111) 48)]) (Ans c.n.toNat) s'.ctx) ⟨c, out⟩ := by
  unfold step911
  rw [wp_bind, wp_get]
  dsimp only
  rw [wp_ite]
  refine ⟨fun _ => ⟨by decide, Part.nil h⟩, fun _ => ?_⟩
  rw [wp_ite]
  refine ⟨fun _ => ⟨by decide, Part.nil h⟩, fun _ => ?_⟩
  rw [wp_bind]
  have := wp_each (c := c) (v0 := v) (s := ⟨c, out⟩) (n := c.n.toNat)
    (f := fun i => [.finish log i (slice input (i * 159 + 111) 48)])
    (body := step911Body clock log input)
    (P := fun i v => (∀ j p, i ≤ j → j < c.n.toNat → v.slots[j]? = some p → p.Opened) ∧
      ∀ j p, c.n.toNat ≤ j → v.slots[j]? = some p → p.Answered)
    h ⟨fun j p _ hj hp => hf.opened j p hj hp, hf.answered⟩ (fun i hi v s h hf => mem911Body hi h hf)
  refine this.mono id (fun _ _ h => h) fun _ s' h => ?_
  have hpart := h.part
  obtain ⟨os, v, h1, h2, h3⟩ := h
  rw [wp_bind, wp_get, wp_bind]
  refine wp_lift_of trivial fun x hx => ?_
  obtain ⟨r, cs, ss⟩ := x
  dsimp only
  rw [wp_ite]
  refine ⟨fun _ => ⟨by decide, hpart⟩, fun _ => ?_⟩
  rw [wp_bind, wp_setCtx]
  have h4 : At { c with shares := ss } v { s'.ctx with shares := ss } :=
    ⟨⟨h2.dev, h2.slots, h2.outs, h2.ins, h2.lost, h2.leaked, h2.sk, h2.peers⟩, rfl, h2.mine⟩
  rw [wp_bind]
  refine at_setOut h4 fun s5 h5 => ?_
  rw [wp_bind]
  refine at_send h5 fun s6 h6 => ?_
  rw [wp_bind]
  refine at_dumpOut h6 fun s7 h7 => ?_
  exact ⟨rfl, os, v, h1, h7.toHolds, h3.2⟩

theorem mem13 [Mac] (h : At c v c) (hf : Ans c.n.toNat v) : Wp (step13 clock log input) True
    (fun e s' => e ≠ 0 ∧ Part c v ((List.range c.n.toNat).flatMap fun i =>
      let s := c.shares.getD i ⟨0, zero32⟩
      [.encrypt i [] 64, .encrypt i (s.index :: s.value.toList) 49, .key i]) s'.ctx)
    (fun r s' => r = 0 ∧ Done c v ((List.range c.n.toNat).flatMap fun i =>
      let s := c.shares.getD i ⟨0, zero32⟩
      [.encrypt i [] 64, .encrypt i (s.index :: s.value.toList) 49, .key i]) (Ans c.n.toNat) s'.ctx) ⟨c, out⟩ := by
  unfold step13
  rw [wp_bind, wp_get]
  dsimp only
  rw [wp_ite]
  refine ⟨fun _ => ⟨by decide, Part.nil h⟩, fun _ => ?_⟩
  rw [wp_ite]
  refine ⟨fun _ => ⟨by decide, Part.nil h⟩, fun _ => ?_⟩
  rw [wp_bind]
  refine at_dump (s := ⟨c, out⟩) h fun s1 h1 => ?_
  rw [wp_bind]
  refine at_recvTp h1 fun r s2 h2 hr => ?_
  rw [wp_ite]
  refine ⟨fun h0 => ⟨by omega, Part.nil h2⟩, fun _ => ?_⟩
  unfold transcript
  rw [wp_bind, wp_setCtx, wp_bind]
  have := wp_each (c := c) (v0 := v)
    (s := ⟨{ s2.ctx with transcript := updateTranscript s2.ctx.transcript input }, s2.out⟩) (n := c.n.toNat)
    (f := fun i =>
      let s := c.shares.getD i ⟨0, zero32⟩
      [.encrypt i [] 64, .encrypt i (s.index :: s.value.toList) 49, .key i])
    (body := step13Body clock log input c.t)
    (P := fun _ v => Ans c.n.toNat v) (h2.of_mem rfl) hf (fun i hi v s h hf => mem13Body hi h hf)
  exact this.mono id (fun _ _ h => h) fun _ s' h => ⟨rfl, h.done⟩

theorem mem15 [Mac] (G : Type) [Ristretto G] (h : At c v c) (hf : Ans c.n.toNat v) :
    Wp (step15 G clock log scratch input) True
    (fun e s' => e ≠ 0 ∧ Part c v ((List.range c.n.toNat).flatMap fun i =>
      [.decrypt (c.n.toNat + i) (slice input (i * 256 + 111) 64) 0, .key (c.n.toNat + i),
        .decrypt (c.n.toNat + i) (slice input (i * 256 + 175) 49) 33]) s'.ctx)
    (fun r s' => r = 0 ∧ Done c v ((List.range c.n.toNat).flatMap fun i =>
      [.decrypt (c.n.toNat + i) (slice input (i * 256 + 111) 64) 0, .key (c.n.toNat + i),
        .decrypt (c.n.toNat + i) (slice input (i * 256 + 175) 49) 33]) (Ans c.n.toNat) s'.ctx) ⟨c, out⟩ := by
  unfold step15
  rw [wp_bind, wp_get]
  dsimp only
  rw [wp_ite]
  refine ⟨fun _ => ⟨by decide, Part.nil h⟩, fun _ => ?_⟩
  rw [wp_ite]
  refine ⟨fun _ => ⟨by decide, Part.nil h⟩, fun _ => ?_⟩
  rw [wp_bind]
  have := wp_each (c := c) (v0 := v) (s := ⟨c, out⟩) (n := c.n.toNat)
    (f := fun i => [.decrypt (c.n.toNat + i) (slice input (i * 256 + 111) 64) 0, .key (c.n.toNat + i),
        .decrypt (c.n.toNat + i) (slice input (i * 256 + 175) 49) 33])
    (body := step15Body clock log input)
    (P := fun _ v => Ans c.n.toNat v) h hf (fun i hi v s h hf => mem15Body h hf)
  refine this.mono id (fun _ _ h => h) fun _ s' h => ?_
  obtain ⟨os, v, h1, h2, h3⟩ := h
  rw [wp_bind, wp_get, wp_bind]
  refine wp_lift_of trivial fun cs _ => ?_
  rw [wp_bind]
  refine wp_lift_of trivial fun x hx => ?_
  obtain ⟨r, fails, len⟩ := x
  dsimp only
  rw [wp_bind]
  refine at_setOut h2 fun s3 h3 => ?_
  rw [wp_bind]
  refine at_setOut h3 fun s4 h4 => ?_
  rw [wp_bind]
  refine at_dumpOut h4 fun s5 h5 => ?_
  rw [wp_bind]
  refine at_send h5 fun s6 h6 => ?_
  rw [wp_bind]
  refine at_dumpOut h6 fun s7 h7 => ?_
  exact ⟨rfl, os, v, h1, h7.toHolds, ‹_›⟩

theorem mem17a (hc : c.step = 7) (h : At c v c) (hf : Ans c.n.toNat v) : Wp (step17a clock log input) True
    (fun e s' => e ≠ 0 ∧ Part c v ((List.range c.myLen.toNat).flatMap fun i =>
      [.key ((c.mine.getD i 0).toNat - 1)]) s'.ctx)
    (fun r s' => r = 0 ∧ Done c v ((List.range c.myLen.toNat).flatMap fun i =>
      [.key ((c.mine.getD i 0).toNat - 1)]) (Ans c.n.toNat) s'.ctx) ⟨c, out⟩ := by
  unfold step17a
  rw [wp_bind, wp_get]
  dsimp only
  rw [wp_ite]
  refine ⟨fun _ => ⟨by decide, Part.nil h⟩, fun _ => ?_⟩
  rw [wp_ite]
  refine ⟨fun _ => ⟨by decide, Part.nil h⟩, fun ho => ?_⟩
  rw [wp_ite]
  refine ⟨fun h0 => ⟨rfl, ?_⟩, fun _ => ?_⟩
  · have hz : c.myLen.toNat = 0 := by
      rw [not_not] at ho
      rw [ho] at h0
      simp only [peerOutputSize, hc, hdrSize, msg19Size] at h0
      split at h0
      · split at h0
        · omega
        · rename_i hn
          have : ¬ (0 : UInt8) < c.myLen := hn
          rw [UInt8.lt_iff_toNat_lt] at this
          simpa using this
      · omega
    rw [hz]
    exact ⟨[], v, rfl, h.toHolds, hf⟩
  rw [wp_bind]
  have := wp_each (c := c) (v0 := v) (s := ⟨c, out⟩) (n := c.myLen.toNat)
    (f := fun i => [.key ((c.mine.getD i 0).toNat - 1)]) (body := step17aBody)
    (P := fun _ v => Ans c.n.toNat v) h hf (fun i hi v s h hf => mem17aBody h hf)
  refine this.mono id (fun _ _ h => h) fun _ s' h => ?_
  obtain ⟨os, v, h1, h2, h3⟩ := h
  rw [wp_bind]
  refine at_send h2 fun s5 h5 => ?_
  rw [wp_bind]
  refine at_dumpOut h5 fun s6 h6 => ?_
  rw [wp_bind, wp_setCtx]
  exact ⟨rfl, os, v, h1, (h6.of_mem (y := { s6.ctx with step := 99 }) rfl).toHolds, h3⟩

end Peer

/-! ### Calls -/

variable [Mac] (G : Type) [Ristretto G]

/-- What is known of the sessions before the call of a step. -/
structure Phase (c : PeerState) (v : Vals) : Prop where
  holds : Holds c.n.toNat c.noiseSk v c
  late : 2 ≤ c.step
  fresh : c.step = 2 → Peer.Fresh c.n.toNat c.n.toNat v
  both : c.step = 3 → Peer.Both c.n.toNat v
  ans : 4 ≤ c.step → c.step ≤ 10 → Peer.Ans c.n.toNat v

/-- The program `ops` leads to the state. -/
def Leads (c : PeerState) (ops : List Op) : Prop :=
  (Blank c ∧ ops = [] ∧ (c.step ≤ 1 ∨ 10 < c.step)) ∨
    ∃ os v, (Vals.new c.noiseSk (c.n.toNat + c.n.toNat)).run ops = .ok (os, v) ∧ Phase c v

theorem peerNext_noiseSk {r : Int} {c' : PeerState} {o : Bytes}
    (h : peerNext G clock log mlock scratch rnd c input out = .ok (r, c', o)) (h0 : c.step ≠ 0) : c'.noiseSk = c.noiseSk :=
  (peerNext_frame G (f := fun c => c.noiseSk)
    ⟨fun _ _ _ => rfl, fun _ _ _ _ => rfl⟩ (fun _ _ _ => rfl) (fun h => absurd h h0)
    (fun _ => ⟨fun _ _ => rfl, fun _ _ => rfl, fun _ _ _ => rfl, fun _ _ _ _ _ => rfl⟩)
    (fun _ => ⟨fun _ _ => rfl, fun _ _ _ => rfl⟩) (fun _ => ⟨fun _ _ _ => rfl, fun _ _ _ => rfl⟩)
    (fun _ => ⟨fun _ _ => rfl, fun _ _ _ => rfl, fun _ _ _ => rfl⟩) (fun _ => ⟨fun _ _ _ => rfl, fun _ _ _ => rfl⟩)
    (fun _ => ⟨fun _ _ => rfl, fun _ _ _ _ => rfl, fun _ _ _ _ => rfl⟩) (fun _ _ _ => rfl) h).1

/-- A call adds its calls of the Noise helpers to the program. -/
theorem leads_call {a : PCall} {ops : List Op} {r : Int} {c' : PeerState} {o : Bytes} (h : Leads c ops)
    (hr : a.run G clock c = .ok (r, c', o)) :
    ∃ pre, pre <+: callOps c a ∧ (r = 0 → pre = callOps c a) ∧ Leads c' (ops ++ pre) := by
  have hr' : peerNext G clock a.log a.mlock a.scratch a.rnd c a.input a.out = .ok (r, c', o) := hr
  obtain ⟨hst, hst10, hst0⟩ := peerNext_step G hr'
  have hn := (peerNext_params G hr').1
  -- calls that do not use the device
  have quiet : c.step ≠ 1 → c.step ≠ 2 → c.step ≠ 3 → c.step ≠ 4 → c.step ≠ 5 → c.step ≠ 7 → Leads c' ops := by
    intro h1 h2 h3 h4 h5 h7
    have e1 := peerNext_dev G hr' h1 h2
    have e2 := peerNext_outs G hr' h1 h3 h4
    have e3 := peerNext_ins G hr' h2 h5
    rcases h with ⟨hb, hops, hs⟩ | ⟨os, v, hv, hp⟩
    · refine .inl ⟨⟨e1.trans hb.dev, ?_, ?_⟩, hops, ?_⟩
      · rw [e2, hn]; exact hb.outs
      · rw [e3, hn]; exact hb.ins
      · by_cases hr0 : r = 0
        · rcases hst0 hr0 with h | h | h
          · rcases hs with hs | hs
            · omega
            · exact absurd hr0 (hst10 hs)
          · omega
          · omega
        · right; rw [hst hr0]; decide
    · have h0 : c.step ≠ 0 := by have := hp.late; omega
      have e4 := peerNext_noiseSk G hr' h0
      refine .inr ⟨os, v, by rw [e4, hn]; exact hv, ?_⟩
      have hh := hp.holds
      have hl := hp.late
      have hs6 : 6 ≤ c.step := by omega
      have hs' : 7 ≤ c'.step := by
        by_cases hr0 : r = 0
        · rcases hst0 hr0 with h | h | h <;> omega
        · rw [hst hr0]; decide
      refine ⟨⟨by rw [e1]; exact hh.dev, by rw [e2, e3]; exact hh.slots, by rw [e2, hn]; exact hh.outs,
        by rw [e3, hn]; exact hh.ins, hh.lost, hh.leaked, rfl, by rw [hn]; exact hh.peers⟩,
        by omega, fun _ => by omega, fun _ => by omega, fun _ h10 => ?_⟩
      rw [hn]
      refine hp.ans (by omega) ?_
      by_contra h11
      rw [hst (hst10 (by omega))] at h10
      omega
  -- the state after a call that uses the device
  have after : ∀ {v0 : Vals} {os0 : List Out} {full : List Op} {s : PRun} {P : Vals → Prop},
      (Vals.new c.noiseSk (c.n.toNat + c.n.toNat)).run ops = .ok (os0, v0) → 1 ≤ c.step → c.step ≤ 7 → c.step ≠ 6 →
      c' = pafter r s.ctx →
      ((r ≠ 0 ∧ Peer.Part c v0 full s.ctx) ∨ (r = 0 ∧ Peer.Done c v0 full P s.ctx)) →
      (∀ v, P v → (c.step = 1 → Peer.Fresh c.n.toNat c.n.toNat v) ∧ (c.step = 2 → Peer.Both c.n.toNat v) ∧
        (3 ≤ c.step → Peer.Ans c.n.toNat v)) →
      ∃ pre, pre <+: full ∧ (r = 0 → pre = full) ∧ Leads c' (ops ++ pre) := by
    intro v0 os0 full s P hv0 hs1 hs7 hs6 hc' hd hP
    have e4 := peerNext_noiseSk G hr' (by omega)
    have key : ∀ {v : Vals}, Holds c.n.toNat c.noiseSk v s.ctx → Holds c'.n.toNat c'.noiseSk v c' := by
      intro v hh
      rw [hn, e4, hc']
      exact ⟨hh.dev, hh.slots, hh.outs, hh.ins, hh.lost, hh.leaked, hh.sk, hh.peers⟩
    rcases hd with ⟨hr0, pre, hpre, os, v, hv, hh⟩ | ⟨hr0, os, v, hv, hh, hPv⟩
    · refine ⟨pre, hpre, fun h => absurd h hr0, .inr ⟨_, v, by rw [e4, hn]; exact run_append hv0 hv, key hh, ?_, ?_, ?_, ?_⟩⟩
      · rw [hst hr0]; decide
      · rw [hst hr0]; intro h; omega
      · rw [hst hr0]; intro h; omega
      · rw [hst hr0]; intro _ h; omega
    · refine ⟨full, List.prefix_rfl, fun _ => rfl, .inr ⟨_, v, by rw [e4, hn]; exact run_append hv0 hv, key hh, ?_, ?_, ?_, ?_⟩⟩
      · rcases hst0 hr0 with h | h | h <;> omega
      · intro h2
        rw [hn]
        refine (hP v hPv).1 ?_
        rcases hst0 hr0 with h | h | h <;> omega
      · intro h3
        rw [hn]
        refine (hP v hPv).2.1 ?_
        rcases hst0 hr0 with h | h | h <;> omega
      · intro h4 _
        rw [hn]
        refine (hP v hPv).2.2 ?_
        rcases hst0 hr0 with h | h | h <;> omega
  by_cases hq : c.step ≠ 1 ∧ c.step ≠ 2 ∧ c.step ≠ 3 ∧ c.step ≠ 4 ∧ c.step ≠ 5 ∧ c.step ≠ 7
  · have hops : callOps c a = [] := by
      unfold callOps
      split <;> first | (exfalso; omega) | rfl
    rw [hops]
    exact ⟨[], List.nil_prefix, fun _ => rfl, by rw [List.append_nil]; exact quiet hq.1 hq.2.1 hq.2.2.1 hq.2.2.2.1 hq.2.2.2.2.1 hq.2.2.2.2.2⟩
  rcases Nat.eq_or_lt_of_le (show 1 ≤ c.step by omega) with h1 | h1
  · -- step 1
    have h1 := h1.symm
    have hb : Blank c ∧ ops = [] := by
      rcases h with ⟨hb, hops, -⟩ | ⟨os, v, -, hp⟩
      · exact ⟨hb, hops⟩
      · have := hp.late; omega
    obtain ⟨hb, rfl⟩ := hb
    have hw := Peer.mem5 (clock := clock) (log := a.log) (rnd := a.rnd) (input := a.input) (out := a.out) hb
    have hh : Peer.handler G clock a.log a.mlock a.scratch a.rnd a.input c.step = Peer.step5 clock a.log a.rnd a.input := by
      rw [h1]; rfl
    rw [← hh] at hw
    obtain ⟨s, hs, hc', -⟩ := peerNext_elim G hw hr'
    have hops : callOps c a = (List.range c.n.toNat).flatMap fun i =>
        [.init i i (toB32 (slice a.input (i * 175 + 254) 32)) (a.rnd.einit i)] := by simp only [callOps, h1]
    rw [hops]
    have hP : ∀ v, Peer.Fresh c.n.toNat c.n.toNat v → (c.step = 1 → Peer.Fresh c.n.toNat c.n.toNat v) ∧
        (c.step = 2 → Peer.Both c.n.toNat v) ∧ (3 ≤ c.step → Peer.Ans c.n.toNat v) :=
      fun v hv => ⟨fun _ => hv, fun _ => by omega, fun _ => by omega⟩
    rcases hs with ⟨hr0, hm | hp⟩ | hd
    · refine ⟨[], List.nil_prefix, fun h => absurd h hr0, .inl ⟨?_, rfl, .inr (by rw [hst hr0]; decide)⟩⟩
      simp only [Peer.mem, Prod.mk.injEq] at hm
      obtain ⟨e1, e2, e3, -⟩ := hm
      refine ⟨?_, ?_, ?_⟩
      · rw [hc']; exact e1.trans hb.dev
      · rw [hn, hc']; exact e2.trans hb.outs
      · rw [hn, hc']; exact e3.trans hb.ins
    · exact after (os0 := []) rfl (by omega) (by omega) (by omega) hc' (.inl ⟨hr0, hp⟩) hP
    · exact after (os0 := []) rfl (by omega) (by omega) (by omega) hc' (.inr hd) hP
  · have hv : ∃ os v, (Vals.new c.noiseSk (c.n.toNat + c.n.toNat)).run ops = .ok (os, v) ∧ Phase c v := by
      rcases h with ⟨-, -, hs⟩ | hv
      · omega
      · exact hv
    obtain ⟨os, v, hv, hp⟩ := hv
    have hat : At c v c := ⟨hp.holds, rfl, rfl⟩
    obtain ⟨k, hk⟩ : ∃ k, c.step = k := ⟨_, rfl⟩
    have hk7 : k ≤ 7 := by omega
    have hk2 : 2 ≤ k := by omega
    interval_cases k
    · have hw := Peer.mem7 (clock := clock) (log := a.log) (rnd := a.rnd) (input := a.input) (out := a.out) hat (hp.fresh hk)
      have hh : Peer.handler G clock a.log a.mlock a.scratch a.rnd a.input c.step = Peer.step7 clock a.log a.rnd a.input := by
        rw [hk]; rfl
      rw [← hh] at hw
      obtain ⟨s, hs, hc', -⟩ := peerNext_elim G hw hr'
      have := after hv (by omega) (by omega) (by omega) hc' hs
        (fun v hv => ⟨fun _ => by omega, fun _ => hv, fun _ => by omega⟩)
      simpa only [callOps, hk] using this
    · have hw := Peer.mem911 (clock := clock) (log := a.log) (mlock := a.mlock) (rnd := a.rnd) (input := a.input)
        (out := a.out) G hat (hp.both hk)
      have hh : Peer.handler G clock a.log a.mlock a.scratch a.rnd a.input c.step =
          Peer.step911 G clock a.log a.mlock a.rnd a.input := by rw [hk]; rfl
      rw [← hh] at hw
      obtain ⟨s, hs, hc', -⟩ := peerNext_elim G hw hr'
      have := after hv (by omega) (by omega) (by omega) hc' hs
        (fun v hv => ⟨fun _ => by omega, fun _ => by omega, fun _ => hv⟩)
      simpa only [callOps, hk] using this
    · have hw := Peer.mem13 (clock := clock) (log := a.log) (input := a.input) (out := a.out) hat
        (hp.ans (by omega) (by omega))
      have hh : Peer.handler G clock a.log a.mlock a.scratch a.rnd a.input c.step = Peer.step13 clock a.log a.input := by
        rw [hk]; rfl
      rw [← hh] at hw
      obtain ⟨s, hs, hc', -⟩ := peerNext_elim G hw hr'
      have := after hv (by omega) (by omega) (by omega) hc' hs
        (fun v hv => ⟨fun _ => by omega, fun _ => by omega, fun _ => hv⟩)
      simpa only [callOps, hk] using this
    · have hw := Peer.mem15 (clock := clock) (log := a.log) (scratch := a.scratch) (input := a.input)
        (out := a.out) G hat (hp.ans (by omega) (by omega))
      have hh : Peer.handler G clock a.log a.mlock a.scratch a.rnd a.input c.step =
          Peer.step15 G clock a.log a.scratch a.input := by rw [hk]; rfl
      rw [← hh] at hw
      obtain ⟨s, hs, hc', -⟩ := peerNext_elim G hw hr'
      have := after hv (by omega) (by omega) (by omega) hc' hs
        (fun v hv => ⟨fun _ => by omega, fun _ => by omega, fun _ => hv⟩)
      simpa only [callOps, hk] using this
    · omega
    · have hw := Peer.mem17a (clock := clock) (log := a.log) (input := a.input) (out := a.out) hk hat
        (hp.ans (by omega) (by omega))
      have hh : Peer.handler G clock a.log a.mlock a.scratch a.rnd a.input c.step = Peer.step17a clock a.log a.input := by
        rw [hk]; rfl
      rw [← hh] at hw
      obtain ⟨s, hs, hc', -⟩ := peerNext_elim G hw hr'
      have := after hv (by omega) (by omega) (by omega) hc' hs
        (fun v hv => ⟨fun _ => by omega, fun _ => by omega, fun _ => hv⟩)
      simpa only [callOps, hk] using this

theorem leads_calls {calls : List PCall} {ops : List Op} {rs : List Int} {c' : PeerState} (h : Leads c ops)
    (hr : peerCalls G clock c calls = .ok (rs, c')) : ∃ ops', Does G clock c calls ops' ∧ Leads c' (ops ++ ops') := by
  induction calls generalizing c ops rs with
  | nil =>
    rw [peerCalls] at hr
    cases hr
    exact ⟨[], rfl, by rw [List.append_nil]; exact h⟩
  | cons a calls ih =>
    rw [peerCalls, C.bind_eq_ok] at hr
    obtain ⟨⟨r, c1, o⟩, h1, hr⟩ := hr
    dsimp only at hr
    rw [C.bind_eq_ok] at hr
    obtain ⟨⟨rs', c2⟩, h2, hr⟩ := hr
    cases hr
    obtain ⟨pre, hp1, hp2, hl⟩ := leads_call G h h1
    obtain ⟨rest, hd, hl'⟩ := ih hl h2
    exact ⟨pre ++ rest, ⟨r, c1, o, pre, rest, h1, hp1, hp2, hd, rfl⟩, by rw [← List.append_assoc]; exact hl'⟩

theorem callOps_short {a : PCall} : ∀ o ∈ callOps c a, short o := by
  intro o ho
  unfold callOps at ho
  dsimp only at ho
  split at ho
  · simp only [List.mem_flatMap, List.mem_singleton] at ho
    obtain ⟨i, -, rfl⟩ := ho; trivial
  · simp only [List.mem_flatMap, List.mem_singleton] at ho
    obtain ⟨i, -, rfl⟩ := ho; trivial
  · simp only [List.mem_flatMap, List.mem_singleton] at ho
    obtain ⟨i, -, rfl⟩ := ho; trivial
  · simp only [List.mem_flatMap, List.mem_cons, List.not_mem_nil, or_false] at ho
    obtain ⟨i, -, rfl | rfl | rfl⟩ := ho
    · simp [short]
    · simp [short]
    · trivial
  · simp only [List.mem_flatMap, List.mem_cons, List.not_mem_nil, or_false] at ho
    have hl : ∀ off k, k ≤ 64 → (slice a.input off k).length ≤ 1024 := by
      intro off k hk
      unfold slice
      rw [List.length_take]; omega
    obtain ⟨i, -, rfl | rfl | rfl⟩ := ho
    · exact hl _ _ (by omega)
    · trivial
    · exact hl _ _ (by omega)
  · simp only [List.mem_flatMap, List.mem_singleton] at ho
    obtain ⟨i, -, rfl⟩ := ho; trivial
  · cases ho

theorem does_short {calls : List PCall} {ops : List Op} (h : Does G clock c calls ops) : ∀ o ∈ ops, short o := by
  induction calls generalizing c ops with
  | nil => cases h; simp
  | cons a calls ih =>
    obtain ⟨r, c1, o, pre, rest, -, hp, -, hd, rfl⟩ := h
    intro op hop
    rcases List.mem_append.mp hop with hop | hop
    · exact callOps_short op (hp.subset hop)
    · exact ih hd op hop

/-! ### Cleanup -/

omit [Signing] [Mac] in
theorem free_run {n : ℕ} : ∀ (m i : ℕ) (ins outs : List (Ptr Session)) (v : Vals), v.slots = outs ++ ins →
    outs.length = n → ins.length = n → i + m = n →
    match freeLoop m i ins outs with
    | .ok (ins', outs') => ∃ os, v.run ((List.range' i m).flatMap fun i => [.free (n + i), .free i]) =
        .ok (os, { v with slots := outs' ++ ins' })
    | .ub u => v.run ((List.range' i m).flatMap fun i => [.free (n + i), .free i]) = .ub u
  | 0, i, ins, outs, v, hs, ho, hi, hm => by
    simp only [freeLoop]
    exact ⟨[], by rw [← hs]; rfl⟩
  | m + 1, i, ins, outs, v, hs, ho, hi, hm => by
    have hii : i < ins.length := by omega
    have hio : i < outs.length := by omega
    have e1 : ld v.slots (n + i) = .ok ins[i] := by
      rw [hs, ld_ok (by rw [List.length_append]; omega), List.getElem_append_right (by omega)]
      simp [ho]
    rw [List.range'_succ, List.flatMap_cons]
    unfold freeLoop
    rw [ld_ok hii, C.ok_bind]
    cases hp : (ins[i]).free with
    | ub u =>
      rw [C.ub_bind]
      simp only [List.cons_append, Vals.run, Vals.step, e1, C.ok_bind, hp, C.ub_bind]
    | ok p =>
      rw [C.ok_bind, st_ok hii, C.ok_bind, ld_ok hio, C.ok_bind]
      have e2 : v.slots.set (n + i) p = outs ++ ins.set i p := by
        rw [hs, List.set_append_right _ _ (by omega), ho]
        simp
      have e3 : ld (outs ++ ins.set i p) i = .ok outs[i] := by
        rw [ld_ok (by rw [List.length_append]; omega), List.getElem_append_left hio]
      have s1 : v.step (.free (n + i)) = .ok (.freed, { v with slots := outs ++ ins.set i p }) := by
        simp only [Vals.step, e1, C.ok_bind, hp, Vals.put, e2, Nat.add_zero]
      cases hq : (outs[i]).free with
      | ub u =>
        rw [C.ub_bind]
        simp only [List.cons_append, Vals.run, s1, C.ok_bind]
        simp only [Vals.step, e3, C.ok_bind, hq, C.ub_bind]
      | ok q =>
        rw [C.ok_bind, st_ok hio, C.ok_bind]
        have s2 : ({ v with slots := outs ++ ins.set i p } : Vals).step (.free i) =
            .ok (.freed, { v with slots := outs.set i q ++ ins.set i p }) := by
          simp only [Vals.step, e3, C.ok_bind, hq, Vals.put, Nat.add_zero, List.set_append_left _ _ hio]
        have ih := free_run (n := n) m (i + 1) (ins.set i p) (outs.set i q) { v with slots := outs.set i q ++ ins.set i p } rfl
          (by simpa using ho) (by simpa using hi) (by omega)
        revert ih
        cases freeLoop m (i + 1) (ins.set i p) (outs.set i q) with
        | ok x =>
          rintro ⟨os, h⟩
          exact ⟨_, run_cons s1 (run_cons s2 h)⟩
        | ub u =>
          intro h
          simp only [List.cons_append, List.nil_append, Vals.run, s1, s2, C.ok_bind, C.ub_bind] at h ⊢
          rw [h]
          rfl

theorem freeLoop_length : ∀ {m i : ℕ} {ins outs ins' outs' : List (Ptr Session)},
    freeLoop m i ins outs = .ok (ins', outs') → ins'.length = ins.length ∧ outs'.length = outs.length
  | 0, i, ins, outs, ins', outs', h => by cases h; exact ⟨rfl, rfl⟩
  | m + 1, i, ins, outs, ins', outs', h => by
    unfold freeLoop at h
    rw [C.bind_eq_ok] at h
    obtain ⟨p, e1, h⟩ := h
    rw [C.bind_eq_ok] at h
    obtain ⟨p', e2, h⟩ := h
    rw [C.bind_eq_ok] at h
    obtain ⟨l1, e3, h⟩ := h
    rw [C.bind_eq_ok] at h
    obtain ⟨q, e4, h⟩ := h
    rw [C.bind_eq_ok] at h
    obtain ⟨q', e5, h⟩ := h
    rw [C.bind_eq_ok] at h
    obtain ⟨l2, e6, h⟩ := h
    obtain ⟨-, rfl⟩ := Peer.st_eq e3
    obtain ⟨-, rfl⟩ := Peer.st_eq e6
    have := freeLoop_length h
    simpa using this

theorem freeLoop_closed : ∀ (m i : ℕ) (ins outs ins' outs' : List (Ptr Session)),
    freeLoop m i ins outs = .ok (ins', outs') → (∀ p ∈ ins.take i, isLive p = false) → (∀ p ∈ outs.take i, isLive p = false) →
    (∀ p ∈ ins'.take (i + m), isLive p = false) ∧ ∀ p ∈ outs'.take (i + m), isLive p = false
  | 0, i, ins, outs, ins', outs', h, h1, h2 => by
    cases h; exact ⟨h1, h2⟩
  | m + 1, i, ins, outs, ins', outs', h, h1, h2 => by
    have key : ∀ {l l' : List (Ptr Session)} {p q : Ptr Session}, ld l i = .ok p → p.free = .ok q → st l i q = .ok l' →
        (∀ p ∈ l.take i, isLive p = false) → ∀ p ∈ l'.take (i + 1), isLive p = false := by
      intro l l' p q e1 e2 e3 hl x hx
      obtain ⟨hi, rfl⟩ := Peer.st_eq e3
      rw [List.take_add_one, List.take_set_of_le le_rfl] at hx
      rcases List.mem_append.mp hx with hx | hx
      · exact hl x hx
      · rw [List.getElem?_set_self hi] at hx
        simp only [Option.toList_some, List.mem_singleton] at hx
        subst hx
        cases p <;> cases e2 <;> rfl
    unfold freeLoop at h
    rw [C.bind_eq_ok] at h
    obtain ⟨p, e1, h⟩ := h
    rw [C.bind_eq_ok] at h
    obtain ⟨p', e2, h⟩ := h
    rw [C.bind_eq_ok] at h
    obtain ⟨l1, e3, h⟩ := h
    rw [C.bind_eq_ok] at h
    obtain ⟨q, e4, h⟩ := h
    rw [C.bind_eq_ok] at h
    obtain ⟨q', e5, h⟩ := h
    rw [C.bind_eq_ok] at h
    obtain ⟨l2, e6, h⟩ := h
    have := freeLoop_closed m (i + 1) l1 l2 ins' outs' h (key e1 e2 e3 h1) (key e4 e5 e6 h2)
    rwa [show i + 1 + m = i + (m + 1) by omega] at this

end Verif.TpDkg
