import Verif.Model.FuzzDump
import Verif.Props.FuzzLoop

/-!
# Lemmas for C109
-/

namespace Verif.TpDkg.Driver

/-- Two libraries that differ in what the trusted party does in `step` only. -/
structure Build.SameBut (step : ℕ) (B W : Build) : Prop where
  tp : ∀ tp input out, tp.step ≠ step → W.tpNext tp input out = B.tpNext tp input out
  peer : W.peerNext = B.peerNext
  junk : W.junk = B.junk
  pjunk : W.pjunk = B.pjunk

namespace Build.SameBut

variable {step : ℕ} {B W : Build}

theorem refl : B.SameBut step B := ⟨fun _ _ _ _ => rfl, rfl, rfl, rfl⟩

theorem buf (h : B.SameBut step W) (len : ℕ) : W.buf len = B.buf len := by unfold Build.buf; rw [h.junk]

theorem pbuf (h : B.SameBut step W) (i len : ℕ) : W.pbuf i len = B.pbuf i len := by unfold Build.pbuf; rw [h.pjunk]

theorem pass (h : B.SameBut step W) : ∀ (i : ℕ) (ps : List PeerState) (cs : List Chan) (net : Chan),
    W.pass i ps cs net = B.pass i ps cs net
  | i, p :: ps, c :: cs, net => by
    unfold Build.pass
    simp only [h.pass (i + 1), h.pbuf, h.peer]
  | _, [], _, _ => by unfold Build.pass; rfl
  | _, _ :: _, [], _ => by unfold Build.pass; rfl

theorem inner (h : B.SameBut step W) : ∀ (k : ℕ) (v : Vars), W.inner k v = B.inner k v
  | 0, _ => rfl
  | k + 1, v => by
    unfold Build.inner
    simp only [h.pass, h.inner k]

end Build.SameBut

variable {B : Build} {opens : String → Bool} {args : List String} {path : String} {step : ℕ}

/-- A program that ends without a file has not been in `step`: with every library that differs there only, and with all test
cases, the fuzzer ends in the same way. The program that writes a file has been there, in the state `u`. -/
theorem dumpLoop_spec (hp : args[4]? = some path) : ∀ (k : ℕ) (v : Vars) (d : Dump),
    B.dumpLoop opens args step k v = .ok d →
    match d with
    | .over v' => ∀ W, B.SameBut step W → ∀ l, W.loop step l k v = .ok (.over v')
    | .returns r => ∀ W, B.SameBut step W → ∀ l, W.loop step l k v = .ok (.returns r)
    | .writes p b => p = path ∧ opens path = true ∧ ∃ (k' : ℕ) (u : Vars) (net : Chan) (size : ℕ), u.tp.step = step ∧ tpNotDone u.tp = true ∧
        tpInputSize u.tp = .ok size ∧ recv u.net (B.buf size) = .ok (b, net) ∧
        ∀ W, B.SameBut step W → ∀ l, W.loop step l k v = W.loop step l (k' + 1) u
  | 0, _, _, h => by cases h
  | k + 1, v, d, h => by
    unfold Build.dumpLoop at h
    split at h
    · rename_i hd
      cases h
      intro W _ l
      unfold Build.loop
      rw [if_pos hd]
    · rename_i hd
      obtain ⟨size, hsz, h⟩ := C.bind_eq_ok.1 h
      obtain ⟨⟨input, net⟩, hrc, h⟩ := C.bind_eq_ok.1 h
      dsimp only at h
      unfold fuzzDump at h
      rw [hp] at h
      dsimp only at h
      by_cases hst : v.tp.step = step
      · rw [if_pos hst] at h
        split at h
        · rename_i ho
          rw [C.ok_bind] at h
          cases h
          exact ⟨rfl, ho, k, v, net, size, hst, by simpa using hd, hsz, hrc, fun _ _ _ => rfl⟩
        · cases h
      · rw [if_neg hst, C.ok_bind] at h
        dsimp only at h
        obtain ⟨⟨r, tp, out⟩, htp, h⟩ := C.bind_eq_ok.1 h
        dsimp only at h
        -- one pass of the fuzzer's loop
        have one : ∀ W, B.SameBut step W → ∀ l, W.loop step l (k + 1) v =
            (if r ≠ 0 then do
              let peers ← freeAll v.peers
              if tp.cheaterLen > 0 then .ok (.over { v with tp, net, peers }) else .ok (.returns r)
            else do
              match ← sendAll tp out tp.n.toNat 0 v.nets with
              | none => .ok (.returns 1)
              | some nets =>
                let (r, v) ← B.inner (k + 1) { v with tp, net, nets }
                if r ≠ 0 then .ok (.returns r) else W.loop step l k v) := by
          intro W hW l
          rw [Build.loop, if_neg hd, hsz, C.ok_bind, hW.buf, hrc, C.ok_bind]
          dsimp only
          rw [show W.fuzz (k + 1) step l { v with net } = .ok (.over { v with net }) by
            unfold Build.fuzz; rw [if_pos hst], C.ok_bind]
          dsimp only
          rw [hW.buf, hW.tp _ _ _ hst, htp, C.ok_bind]
          dsimp only
          simp only [hW.inner]
          rfl
        by_cases hr : r ≠ 0
        · rw [if_pos hr] at h
          obtain ⟨peers, hf, h⟩ := C.bind_eq_ok.1 h
          by_cases hc : tp.cheaterLen > 0
          · rw [if_pos hc] at h
            cases h
            intro W hW l
            rw [one W hW l, if_pos hr, hf, C.ok_bind, if_pos hc]
          · rw [if_neg hc] at h
            cases h
            intro W hW l
            rw [one W hW l, if_pos hr, hf, C.ok_bind, if_neg hc]
        · rw [if_neg hr] at h
          obtain ⟨x, hs, h⟩ := C.bind_eq_ok.1 h
          cases x with
          | none =>
            cases h
            intro W hW l
            rw [one W hW l, if_neg hr, hs, C.ok_bind]
          | some nets =>
            dsimp only at h
            obtain ⟨⟨r', v'⟩, hi, h⟩ := C.bind_eq_ok.1 h
            dsimp only at h
            have two : ∀ W, B.SameBut step W → ∀ l, W.loop step l (k + 1) v =
                if r' ≠ 0 then .ok (.returns r') else W.loop step l k v' := by
              intro W hW l
              rw [one W hW l, if_neg hr, hs, C.ok_bind]
              dsimp only
              rw [hi, C.ok_bind]
            by_cases hr' : r' ≠ 0
            · rw [if_pos hr'] at h
              cases h
              intro W hW l
              rw [two W hW l, if_pos hr']
            · rw [if_neg hr'] at h
              have ih := dumpLoop_spec hp k v' d h
              cases d with
              | over w => exact fun W hW l => by rw [two W hW l, if_neg hr']; exact ih W hW l
              | returns w => exact fun W hW l => by rw [two W hW l, if_neg hr']; exact ih W hW l
              | writes p b =>
                obtain ⟨h1, h2, k', u, net', size', h3, h4, h5, h6, h8⟩ := ih
                exact ⟨h1, h2, k', u, net', size', h3, h4, h5, h6, fun W hW l => by
                  rw [two W hW l, if_neg hr']; exact h8 W hW l⟩

/-! ## The variant for peers -/

/-- The library `B`, except that the first peer ends in `step` with an error that shows its input. -/
def watchPeer (B : Build) (step : ℕ) (code : Bytes → Int) : Build :=
  { B with peerNext := fun i p input out => if i = 0 ∧ p.step = step then .ok (code input, p, out) else B.peerNext i p input out }

/-- Two libraries that differ in what the first peer does in `step` only. -/
structure Build.SamePeerBut (step : ℕ) (B W : Build) : Prop where
  tp : W.tpNext = B.tpNext
  peer : ∀ i p input out, ¬(i = 0 ∧ p.step = step) → W.peerNext i p input out = B.peerNext i p input out
  junk : W.junk = B.junk
  pjunk : W.pjunk = B.pjunk

namespace Build.SamePeerBut

variable {W : Build}

theorem buf (h : B.SamePeerBut step W) (len : ℕ) : W.buf len = B.buf len := by unfold Build.buf; rw [h.junk]

theorem pbuf (h : B.SamePeerBut step W) (i len : ℕ) : W.pbuf i len = B.pbuf i len := by unfold Build.pbuf; rw [h.pjunk]

theorem watch (B : Build) (step : ℕ) (code : Bytes → Int) : B.SamePeerBut step (watchPeer B step code) :=
  ⟨rfl, fun i p input out h => by unfold watchPeer; dsimp only; rw [if_neg h], rfl, rfl⟩

end Build.SamePeerBut

/-- What is shown about a loop `f` that ends with `d` if it may write a file. -/
def Same (B : Build) (step : ℕ) (path : String) (opens : String → Bool) (f : Build → C Outcome) : Dump → Prop
  | .over v => ∀ W, B.SamePeerBut step W → f W = .ok (.over v)
  | .returns r => ∀ W, B.SamePeerBut step W → f W = .ok (.returns r)
  | .writes p b => p = path ∧ opens path = true ∧ ∃ ps, ∀ code : Bytes → Int, (∀ x, code x ≠ 0) →
      f (watchPeer B step code) = (do let _ ← freeAll ps; .ok (.returns (code b)))

theorem Same.of_eq {f g : Build → C Outcome} (h : ∀ W, B.SamePeerBut step W → f W = g W) {d : Dump}
    (hd : Same B step path opens g d) : Same B step path opens f d := by
  cases d with
  | over v => exact fun W hW => (h W hW).trans (hd W hW)
  | returns r => exact fun W hW => (h W hW).trans (hd W hW)
  | writes p b =>
    obtain ⟨h1, h2, ps, h3⟩ := hd
    exact ⟨h1, h2, ps, fun code hc => (h _ (.watch B step code)).trans (h3 code hc)⟩

theorem dumpPasses_spec (hp : args[4]? = some path) (k : ℕ) : ∀ (m i : ℕ) (v : Vars) (d : Dump),
    B.dumpPasses opens args step m i v = .ok d → Same B step path opens (fun W => W.passes k step [] m i v) d
  | 0, _, v, d, h => by
    unfold Build.dumpPasses at h
    cases h
    intro W _
    unfold Build.passes
    rfl
  | m + 1, i, v, d, h => by
    unfold Build.dumpPasses at h
    obtain ⟨p, h1, h⟩ := C.bind_eq_ok.1 h
    obtain ⟨c, h2, h⟩ := C.bind_eq_ok.1 h
    obtain ⟨⟨input, c'⟩, h3, h⟩ := C.bind_eq_ok.1 h
    obtain ⟨nets, h4, h⟩ := C.bind_eq_ok.1 h
    dsimp only at h
    -- one pass of the fuzzer's loop
    have one : ∀ W, B.SamePeerBut step W → W.passes k step [] (m + 1) i v = (do
        let (r, p, out) ← W.peerNext i p input (B.pbuf i (peerOutputSize p))
        let peers ← st v.peers i p
        if r ≠ 0 then do
          let _ ← freeAll peers
          .ok (.returns r)
        else do
          let net ← send v.net out
          W.passes k step [] m (i + 1) { v with peers, net, nets }) := by
      intro W hW
      have hne : ∃ q, v.peers[0]? = some q := by
        cases hv : v.peers with
        | nil => rw [hv, ld] at h1; cases i <;> cases h1
        | cons q qs => exact ⟨q, rfl⟩
      obtain ⟨q, hq⟩ := hne
      rw [Build.passes, h1, C.ok_bind, h2, C.ok_bind, hW.pbuf, h3, C.ok_bind]
      dsimp only
      rw [h4, C.ok_bind, Props.C107_peer_skipped (B := W) k step [] { v with nets } q hq (by simp), C.ok_bind]
      dsimp only
      rw [h1, C.ok_bind, hW.pbuf]
    by_cases hi : i = 0 ∧ p.step = step
    · obtain ⟨rfl, hs⟩ := hi
      rw [if_pos rfl, fuzzDump, hp] at h
      dsimp only at h
      rw [if_pos hs] at h
      split at h
      · rename_i ho
        rw [C.ok_bind] at h
        cases h
        have hst : ∃ ps, st v.peers 0 p = .ok ps := by
          cases hv : v.peers with
          | nil => rw [hv, ld] at h1; cases h1
          | cons q qs => exact ⟨_, rfl⟩
        obtain ⟨ps, hst⟩ := hst
        refine ⟨rfl, ho, ps, fun code hc => ?_⟩
        dsimp only
        rw [one _ (.watch B step code)]
        have e : ∀ o, (watchPeer B step code).peerNext 0 p input o = .ok (code input, p, o) := by
          intro o
          unfold watchPeer
          dsimp only
          rw [if_pos ⟨rfl, hs⟩]
        rw [e, C.ok_bind]
        dsimp only
        rw [hst, C.ok_bind, if_pos (hc input)]
      · cases h
    · have h' : (do
          let (r, p, out) ← B.peerNext i p input (B.pbuf i (peerOutputSize p))
          let peers ← st v.peers i p
          if r ≠ 0 then do
            let _ ← freeAll peers
            C.ok (Dump.returns r)
          else do
            let net ← send v.net out
            B.dumpPasses opens args step m (i + 1) { v with peers, net, nets }) = .ok d := by
        by_cases h0 : i = 0
        · rw [if_pos h0, fuzzDump, hp] at h
          dsimp only at h
          rw [if_neg (fun e => hi ⟨h0, e⟩), C.ok_bind] at h
          exact h
        · rw [if_neg h0, C.ok_bind] at h
          exact h
      clear h
      obtain ⟨⟨r, p', out⟩, h5, h⟩ := C.bind_eq_ok.1 h'
      dsimp only at h
      obtain ⟨peers, h6, h⟩ := C.bind_eq_ok.1 h
      have two : ∀ W, B.SamePeerBut step W → W.passes k step [] (m + 1) i v =
          (if r ≠ 0 then do
            let _ ← freeAll peers
            .ok (.returns r)
          else do
            let net ← send v.net out
            W.passes k step [] m (i + 1) { v with peers, net, nets }) := by
        intro W hW
        rw [one W hW, hW.peer _ _ _ _ hi, h5, C.ok_bind]
        dsimp only
        rw [h6, C.ok_bind]
      by_cases hr : r ≠ 0
      · rw [if_pos hr] at h
        obtain ⟨fs, h7, h⟩ := C.bind_eq_ok.1 h
        cases h
        intro W hW
        dsimp only
        rw [two W hW, if_pos hr, h7, C.ok_bind]
      · rw [if_neg hr] at h
        obtain ⟨net, h7, h⟩ := C.bind_eq_ok.1 h
        refine Same.of_eq (fun W hW => ?_) (dumpPasses_spec hp k m (i + 1) _ d h)
        rw [two W hW, if_neg hr, h7, C.ok_bind]

/-- A loop that goes on with `g` after `f`. -/
theorem Same.bind {f : Build → C Outcome} {x : C Dump} {gd : Vars → C Dump} {g : Build → Vars → C Outcome} {d : Dump}
    (hf : ∀ d, x = .ok d → Same B step path opens f d)
    (hg : ∀ v d, gd v = .ok d → Same B step path opens (fun W => g W v) d)
    (h : (x >>= fun o => match o with
      | Dump.returns r => C.ok (Dump.returns r)
      | Dump.writes p b => C.ok (Dump.writes p b)
      | Dump.over v => gd v) = C.ok d) :
    Same B step path opens (fun W => f W >>= fun o => match o with
      | Outcome.returns r => C.ok (Outcome.returns r)
      | Outcome.over v => g W v) d := by
  obtain ⟨d', hx, h⟩ := C.bind_eq_ok.1 h
  have hs := hf d' hx
  cases d' with
  | returns r =>
    cases h
    intro W hW
    dsimp only
    rw [hs W hW, C.ok_bind]
  | writes p b =>
    cases h
    obtain ⟨h1, h2, ps, h3⟩ := hs
    refine ⟨h1, h2, ps, fun code hc => ?_⟩
    dsimp only
    rw [h3 code hc]
    cases freeAll ps with
    | ub r => rfl
    | ok x => rfl
  | over v =>
    refine Same.of_eq (fun W hW => ?_) (hg v d h)
    rw [hs W hW, C.ok_bind]

theorem dumpInner_spec (hp : args[4]? = some path) : ∀ (k : ℕ) (v : Vars) (d : Dump),
    B.dumpInner opens args step k v = .ok d → Same B step path opens (fun W => W.innerF step [] k v) d
  | 0, _, _, h => by cases h
  | k + 1, v, d, h => by
    unfold Build.dumpInner at h
    by_cases hn : v.net.len ≠ 0
    · rw [if_pos hn] at h
      cases h
      intro W _
      dsimp only
      rw [Build.innerF, if_pos hn]
    · rw [if_neg hn] at h
      obtain ⟨p, h1, h⟩ := C.bind_eq_ok.1 h
      by_cases hd : peerNotDone p = false
      · rw [if_pos hd] at h
        cases h
        intro W _
        dsimp only
        rw [Build.innerF, if_neg hn, h1, C.ok_bind, if_pos hd]
      · rw [if_neg hd] at h
        refine Same.of_eq (fun W hW => ?_) (Same.bind (f := fun W => W.passes (k + 1) step [] v.peers.length 0 v)
          (g := fun W v => W.innerF step [] k v) (fun d => dumpPasses_spec hp (k + 1) _ _ _ d)
          (fun v d => dumpInner_spec hp k v d) h)
        rw [Build.innerF, if_neg hn, h1, C.ok_bind, if_neg hd]
        rfl

theorem dumpLoopP_spec (hp : args[4]? = some path) : ∀ (k : ℕ) (v : Vars) (d : Dump),
    B.dumpLoopP opens args step k v = .ok d → Same B step path opens (fun W => W.loopP step [] k v) d
  | 0, _, _, h => by cases h
  | k + 1, v, d, h => by
    unfold Build.dumpLoopP at h
    by_cases hn : tpNotDone v.tp = false
    · rw [if_pos hn] at h
      cases h
      intro W _
      dsimp only
      rw [Build.loopP, if_pos hn]
    · rw [if_neg hn] at h
      obtain ⟨size, h1, h⟩ := C.bind_eq_ok.1 h
      obtain ⟨⟨input, net⟩, h2, h⟩ := C.bind_eq_ok.1 h
      dsimp only at h
      obtain ⟨⟨r, tp, out⟩, h3, h⟩ := C.bind_eq_ok.1 h
      dsimp only at h
      by_cases hr : r ≠ 0
      · rw [if_pos hr] at h
        obtain ⟨peers, h4, h⟩ := C.bind_eq_ok.1 h
        by_cases hc : tp.cheaterLen > 0
        · rw [if_pos hc] at h
          cases h
          intro W hW
          dsimp only
          rw [Build.loopP, if_neg hn, h1, C.ok_bind, hW.buf, h2, C.ok_bind]
          dsimp only
          rw [hW.tp, hW.buf, h3, C.ok_bind]
          dsimp only
          rw [if_pos hr, h4, C.ok_bind, if_pos hc]
        · rw [if_neg hc] at h
          cases h
          intro W hW
          dsimp only
          rw [Build.loopP, if_neg hn, h1, C.ok_bind, hW.buf, h2, C.ok_bind]
          dsimp only
          rw [hW.tp, hW.buf, h3, C.ok_bind]
          dsimp only
          rw [if_pos hr, h4, C.ok_bind, if_neg hc]
      · rw [if_neg hr] at h
        obtain ⟨x, h4, h⟩ := C.bind_eq_ok.1 h
        cases x with
        | none =>
          cases h
          intro W hW
          dsimp only
          rw [Build.loopP, if_neg hn, h1, C.ok_bind, hW.buf, h2, C.ok_bind]
          dsimp only
          rw [hW.tp, hW.buf, h3, C.ok_bind]
          dsimp only
          rw [if_neg hr, h4, C.ok_bind]
        | some nets =>
          refine Same.of_eq (fun W hW => ?_) (Same.bind
            (f := fun W => W.innerF step [] (k + 1) { v with tp, nets, net })
            (g := fun W v => W.loopP step [] k v) (fun d => dumpInner_spec hp (k + 1) _ d)
            (fun v d => dumpLoopP_spec hp k v d) h)
          rw [Build.loopP, if_neg hn, h1, C.ok_bind, hW.buf, h2, C.ok_bind]
          dsimp only
          rw [hW.tp, hW.buf, h3, C.ok_bind]
          dsimp only
          rw [if_neg hr, h4, C.ok_bind]
          rfl

end Verif.TpDkg.Driver
