import Verif.Proofs.FuzzLoop
import Verif.Proofs.PeerToy
import Verif.Props.PeerRun

/-!
# Property C107: the fuzzing of the key generation (`/repo/src/tests/tp-dkg.c:121-353`, `483-486`, `527-530`)

The library is a parameter, since the fuzzing build leaves out checks. The theorems say which of its properties they use.
-/

set_option linter.unusedSectionVars false

namespace Verif.Props

open TpDkg TpDkg.Driver Wire

section
variable {B : Build}

/-- **C107.** Test cases that are shorter than a header are skipped: with no others, and in steps that are not fuzzed,
nothing changes. -/
theorem C107_skipped (k step : ℕ) (l : List Bytes) (v : Vars) (h : v.tp.step = step → ∀ b ∈ l, b.length < 111) :
    B.fuzz k step l v = .ok (.over v) := by
  unfold Build.fuzz
  split
  · rfl
  · rename_i hs
    replace h := h (not_not.1 hs)
    clear hs
    induction l with
    | nil => rfl
    | cons b l ih =>
      unfold Build.cases
      rw [if_pos (h b List.mem_cons_self)]
      exact ih fun c hc => h c (List.mem_cons_of_mem _ hc)

/-- **C107.** A test case that the trusted party refuses ends the program, with the code of the refusal or, if a cheater
was recorded, with 125. The cases behind it are not tried. -/
theorem C107_refused (k : ℕ) (short : List Bytes) (b : Bytes) (l : List Bytes) (v : Vars)
    (hs : ∀ c ∈ short, c.length < 111) (hb : 111 ≤ b.length) {r : Int} {tp : TP} {o : Bytes} {ps : List PeerState}
    (h : B.tpNext v.tp b (B.buf (tpOutputSize v.tp)) = .ok (r, tp, o)) (hr : r ≠ 0) (hf : freeAll v.peers = .ok ps) :
    B.fuzz k v.tp.step (short ++ b :: l) v = .ok (.returns (if tp.cheaterLen > 0 then 125 else r)) := by
  unfold Build.fuzz
  rw [if_neg (not_not.2 rfl)]
  suffices ∀ tp0 ps0, B.cases k tp0 ps0 (short ++ b :: l) v = .ok (.returns (if tp.cheaterLen > 0 then 125 else r)) from
    this _ _
  intro tp0 ps0
  induction short with
  | nil =>
    rw [List.nil_append]
    unfold Build.cases
    rw [if_neg (by omega), h, C.ok_bind]
    dsimp only
    rw [if_pos hr, hf, C.ok_bind]
  | cons c short ih =>
    rw [List.cons_append]
    unfold Build.cases
    rw [if_pos (hs c List.mem_cons_self)]
    exact ih fun d hd => hs d (List.mem_cons_of_mem _ hd)

theorem cases_restored (k : ℕ) (tp0 : TP) (ps0 : List PeerState) : ∀ (l : List Bytes) (v v' : Vars),
    v.tp.back tp0 = v.tp → v.peers.length = ps0.length → List.zipWith PeerState.back v.peers ps0 = v.peers →
    B.cases k tp0 ps0 l v = .ok (.over v') →
    v'.tp.back tp0 = v'.tp ∧ v'.peers.length = ps0.length ∧ List.zipWith PeerState.back v'.peers ps0 = v'.peers
  | [], v, v', h1, h2, h3, h => by
    unfold Build.cases at h
    cases h
    exact ⟨h1, h2, h3⟩
  | b :: l, v, v', h1, h2, h3, h => by
    unfold Build.cases at h
    split at h
    · exact cases_restored k tp0 ps0 l v v' h1 h2 h3 h
    · obtain ⟨⟨r, tp, out⟩, -, h⟩ := C.bind_eq_ok.1 h
      dsimp only at h
      split at h
      · obtain ⟨ps, -, h⟩ := C.bind_eq_ok.1 h
        cases h
      · obtain ⟨o, ho, h⟩ := C.bind_eq_ok.1 h
        cases o with
        | returns r => cases h
        | over w =>
          have hl : w.peers.length = ps0.length := (Build.rest_length _ _ ho).trans h2
          refine cases_restored k tp0 ps0 l _ v' rfl ?_ ?_ h
          · rw [List.length_zipWith, hl, Nat.min_self]
          · apply List.ext_getElem?
            intro i
            dsimp only
            simp only [List.getElem?_zipWith]
            cases w.peers[i]? <;> cases ps0[i]? <;> rfl

/-- **C107.** After the test cases the structures of the trusted party and of the peers are those of the step that is fuzzed.
What is missing: the arrays behind the pointers and the network keep what the test cases left there. -/
theorem C107_restored_partial (k step : ℕ) (l : List Bytes) (v v' : Vars) (h : B.fuzz k step l v = .ok (.over v')) :
    (∃ lastTs sigPks ltPks commitments encShares complaints cheaters ticks, v'.tp =
      { v.tp with lastTs, sigPks, ltPks, commitments, encShares, complaints, cheaters, ticks }) ∧
    v'.peers.length = v.peers.length ∧
    ∀ (i : ℕ) (p : PeerState), v.peers[i]? = some p → ∃ lastTs sigPks noisePks outs ins commitments shares xshares complaints mine ticks,
      v'.peers[i]? = some { p with
        lastTs, sigPks, noisePks, outs, ins, commitments, shares, xshares, complaints, mine, ticks } := by
  unfold Build.fuzz at h
  split at h
  · cases h
    exact ⟨⟨_, _, _, _, _, _, _, _, rfl⟩, rfl, fun i p hp => ⟨_, _, _, _, _, _, _, _, _, _, _, hp⟩⟩
  · have hz : List.zipWith PeerState.back v.peers v.peers = v.peers := by
      apply List.ext_getElem?
      intro i
      rw [List.getElem?_zipWith]
      cases v.peers[i]? <;> rfl
    obtain ⟨h1, h2, h3⟩ := cases_restored k v.tp v.peers l v v' rfl rfl hz h
    refine ⟨⟨_, _, _, _, _, _, _, _, h1.symm⟩, h2, fun i p hp => ?_⟩
    rw [← h3, List.getElem?_zipWith, hp]
    have hi : i < v'.peers.length := by
      rw [h2]
      exact (List.getElem?_eq_some_iff.1 hp).1
    rw [List.getElem?_eq_getElem hi]
    exact ⟨_, _, _, _, _, _, _, _, _, _, _, rfl⟩

/-- **C107, the variant for peers.** Test cases that are shorter than a header are skipped, and in other steps nothing
happens. -/
theorem C107_peer_skipped (k step : ℕ) (l : List Bytes) (v : Vars) (p : PeerState) (hp : v.peers[0]? = some p)
    (h : p.step = step → ∀ b ∈ l, b.length < 111) : B.fuzzP k step l v = .ok (.over v) := by
  unfold Build.fuzzP
  rw [ld, hp]
  dsimp only
  rw [C.ok_bind]
  split
  · rfl
  · rename_i hs
    replace h := h (not_not.1 hs)
    clear hs
    induction l with
    | nil => rfl
    | cons b l ih =>
      unfold Build.casesP
      rw [if_pos (h b List.mem_cons_self)]
      exact ih fun c hc => h c (List.mem_cons_of_mem _ hc)

/-- **C107, the variant for peers.** A test case that the first peer refuses ends the program with the code of the refusal. -/
theorem C107_peer_refused (k : ℕ) (short : List Bytes) (b : Bytes) (l : List Bytes) (v : Vars)
    (hs : ∀ c ∈ short, c.length < 111) (hb : 111 ≤ b.length) (hc : v.nets ≠ []) {p p' : PeerState} {r : Int} {o : Bytes}
    (hp : v.peers[0]? = some p) (h : B.peerNext 0 p b (B.pbuf 0 (peerOutputSize p)) = .ok (r, p', o)) (hr : r ≠ 0) :
    B.fuzzP k p.step (short ++ b :: l) v = .ok (.returns r) := by
  unfold Build.fuzzP
  rw [ld, hp]
  dsimp only
  rw [C.ok_bind, if_neg (not_not.2 rfl)]
  suffices ∀ tp0 ps0, B.casesP k tp0 ps0 (short ++ b :: l) v = .ok (.returns r) from this _ _
  intro tp0 ps0
  induction short with
  | nil =>
    rw [List.nil_append]
    unfold Build.casesP
    rw [if_neg (by omega)]
    obtain ⟨tp, _ | ⟨q, ps⟩, net, _ | ⟨c, cs⟩⟩ := v
    · cases hp
    · cases hp
    · exact absurd rfl hc
    · cases hp
      dsimp only
      rw [h, C.ok_bind]
      dsimp only
      rw [if_pos hr]
  | cons c short ih =>
    rw [List.cons_append]
    unfold Build.casesP
    rw [if_pos (hs c List.mem_cons_self)]
    exact ih fun d hd => hs d (List.mem_cons_of_mem _ hd)

theorem casesP_restored (k : ℕ) (tp0 : TP) (ps0 : List PeerState) : ∀ (l : List Bytes) (v v' : Vars),
    v.tp.back tp0 = v.tp → v.peers.length = ps0.length → List.zipWith PeerState.back v.peers ps0 = v.peers →
    B.casesP k tp0 ps0 l v = .ok (.over v') →
    v'.tp.back tp0 = v'.tp ∧ v'.peers.length = ps0.length ∧ List.zipWith PeerState.back v'.peers ps0 = v'.peers
  | [], v, v', h1, h2, h3, h => by
    unfold Build.casesP at h
    cases h
    exact ⟨h1, h2, h3⟩
  | b :: l, v, v', h1, h2, h3, h => by
    unfold Build.casesP at h
    split at h
    · exact casesP_restored k tp0 ps0 l v v' h1 h2 h3 h
    · split at h
      · rename_i p ps c cs e1 e2
        obtain ⟨⟨r, p', out⟩, -, h⟩ := C.bind_eq_ok.1 h
        dsimp only at h
        split at h
        · cases h
        · obtain ⟨net, -, h⟩ := C.bind_eq_ok.1 h
          obtain ⟨⟨r, ps', cs', net'⟩, hps, h⟩ := C.bind_eq_ok.1 h
          dsimp only at h
          split at h
          · cases h
          · obtain ⟨o, ho, h⟩ := C.bind_eq_ok.1 h
            cases o with
            | returns r => cases h
            | over w =>
              have hl : w.peers.length = ps0.length := by
                rw [Build.restP_length _ _ ho, List.length_cons, Build.pass_length _ _ _ _ hps, ← h2, e1, List.length_cons]
              refine casesP_restored k tp0 ps0 l _ v' rfl ?_ ?_ h
              · rw [List.length_zipWith, hl, Nat.min_self]
              · apply List.ext_getElem?
                intro i
                dsimp only
                simp only [List.getElem?_zipWith]
                cases w.peers[i]? <;> cases ps0[i]? <;> rfl
      · cases h

/-- **C107, the variant for peers.** As `C107_restored_partial`. -/
theorem C107_peer_restored_partial (k step : ℕ) (l : List Bytes) (v v' : Vars) (h : B.fuzzP k step l v = .ok (.over v')) :
    (∃ lastTs sigPks ltPks commitments encShares complaints cheaters ticks, v'.tp =
      { v.tp with lastTs, sigPks, ltPks, commitments, encShares, complaints, cheaters, ticks }) ∧
    v'.peers.length = v.peers.length ∧
    ∀ (i : ℕ) (p : PeerState), v.peers[i]? = some p →
      ∃ lastTs sigPks noisePks outs ins commitments shares xshares complaints mine ticks,
        v'.peers[i]? = some { p with
          lastTs, sigPks, noisePks, outs, ins, commitments, shares, xshares, complaints, mine, ticks } := by
  unfold Build.fuzzP at h
  obtain ⟨p0, -, h⟩ := C.bind_eq_ok.1 h
  split at h
  · cases h
    exact ⟨⟨_, _, _, _, _, _, _, _, rfl⟩, rfl, fun i p hp => ⟨_, _, _, _, _, _, _, _, _, _, _, hp⟩⟩
  · have hz : List.zipWith PeerState.back v.peers v.peers = v.peers := by
      apply List.ext_getElem?
      intro i
      rw [List.getElem?_zipWith]
      cases v.peers[i]? <;> rfl
    obtain ⟨h1, h2, h3⟩ := casesP_restored k v.tp v.peers l v v' rfl rfl hz h
    refine ⟨⟨_, _, _, _, _, _, _, _, h1.symm⟩, h2, fun i p hp => ?_⟩
    rw [← h3, List.getElem?_zipWith, hp]
    have hi : i < v'.peers.length := by
      rw [h2]
      exact (List.getElem?_eq_some_iff.1 hp).1
    rw [List.getElem?_eq_getElem hi]
    exact ⟨_, _, _, _, _, _, _, _, _, _, _, rfl⟩

/-- **C107, violated in the variant for peers: the second test case does not start from the state of the first.** In the last step,
in which the trusted party is done, one message waits for every peer. The first case takes those of the other peers, and they are not
put back: in the second case the next peer reads a buffer that is not initialised. -/
theorem C107_peer_network_violated (k : ℕ) (b : Bytes) (hb : 111 ≤ b.length) (v v' : Vars) (p q : PeerState) (c : Chan)
    (hd : tpNotDone v.tp = false) (hp : v.peers[0]? = some p) (hq : v.peers[1]? = some q) (hc : v.nets[1]? = some c)
    (hw : c.len = peerInputSize q) (hpos : 0 < c.len) (h : B.fuzzP k p.step [b] v = .ok (.over v')) :
    ∃ c', v'.nets[1]? = some c' ∧ ∀ buf : Bytes, buf.length = peerInputSize q → recv c' buf = .ok (buf, c') := by
  obtain ⟨tp, _ | ⟨p1, _ | ⟨q1, ps⟩⟩, net, _ | ⟨c0, _ | ⟨c1, cs⟩⟩⟩ := v
  all_goals first | (cases hp; done) | (cases hq; done) | (cases hc; done) | skip
  cases hp
  cases hq
  cases hc
  unfold Build.fuzzP at h
  obtain ⟨p0, h0, h⟩ := C.bind_eq_ok.1 h
  cases h0
  rw [if_neg (not_not.2 rfl)] at h
  unfold Build.casesP at h
  rw [if_neg (by omega)] at h
  dsimp only at h
  obtain ⟨⟨r, p', out⟩, -, h⟩ := C.bind_eq_ok.1 h
  dsimp only at h
  split at h
  · cases h
  · obtain ⟨net1, -, h⟩ := C.bind_eq_ok.1 h
    obtain ⟨⟨r2, ps2, cs2, net2⟩, h2, h⟩ := C.bind_eq_ok.1 h
    dsimp only at h
    split at h
    · cases h
    · obtain ⟨o, ho, h⟩ := C.bind_eq_ok.1 h
      have hcs : ∃ c', cs2[0]? = some c' ∧ c'.len = 0 := by
        unfold Build.pass at h2
        obtain ⟨⟨input, c2⟩, hr, h2⟩ := C.bind_eq_ok.1 h2
        obtain ⟨⟨r3, q2, out2⟩, -, h2⟩ := C.bind_eq_ok.1 h2
        have hz : c2.len = 0 := by
          unfold recv at hr
          have hbl : (B.pbuf 1 (peerInputSize q)).length = peerInputSize q := by simp [Build.pbuf]
          rw [hbl, if_neg (by omega)] at hr
          obtain ⟨m, -, hr⟩ := C.bind_eq_ok.1 hr
          cases hr
          dsimp only
          omega
        dsimp only at h2
        split at h2
        · cases h2
          exact ⟨c2, rfl, hz⟩
        · obtain ⟨net3, -, h2⟩ := C.bind_eq_ok.1 h2
          obtain ⟨⟨r4, ps4, cs4, net4⟩, -, h2⟩ := C.bind_eq_ok.1 h2
          cases h2
          exact ⟨c2, rfl, hz⟩
      obtain ⟨c', hc', hz⟩ := hcs
      cases k with
      | zero => unfold Build.restP at ho; cases ho
      | succ k =>
        unfold Build.restP at ho
        rw [if_pos hd] at ho
        cases ho
        dsimp only at h
        unfold Build.casesP at h
        cases h
        refine ⟨c', hc', fun buf hbuf => ?_⟩
        unfold recv
        rw [if_pos (by rw [hz, hbuf]; omega)]

/-- **C107, violated: no test case for steps 1 and 4 runs to the end of the protocol.** After the next step the messages for the peers are
taken from the output of the step that is fuzzed, since the new output is a variable of an inner block. It is too short, and
`tpdkg_tp_peer_msg` fails. So as soon as one case is as long as a header, the program returns an error, whatever the
case contains. `I` is any set of states on which the library moves on step by step. -/
theorem C107_stale_violated {I : TP → Prop} (hB : B.Regular I) (k step : ℕ) (hs : step = 1 ∨ step = 4) (l : List Bytes)
    (hl : ∃ b ∈ l, 111 ≤ b.length) (v : Vars) (hv : v.tp.step = step) (hI : I v.tp) (hn : 2 ≤ v.tp.n.toNat)
    (ht : v.tp.t.toNat ≤ v.tp.n.toNat) (o : Outcome) (h : B.fuzz k step l v = .ok o) : ∃ r, r ≠ 0 ∧ o = .returns r := by
  unfold Build.fuzz at h
  rw [if_neg (not_not.2 hv)] at h
  have key : ∀ tp0 ps0, B.cases k tp0 ps0 l v = .ok o → ∃ r, r ≠ 0 ∧ o = .returns r := by
    clear h
    intro tp0 ps0 h
    induction l with
    | nil => simp at hl
    | cons b l ih =>
      unfold Build.cases at h
      by_cases hb : b.length < 111
      · rw [if_pos hb] at h
        obtain ⟨c, hc, hlen⟩ := hl
        refine ih ⟨c, ?_, hlen⟩ h
        rcases List.mem_cons.1 hc with rfl | hc
        · omega
        · exact hc
      · rw [if_neg hb] at h
        obtain ⟨⟨r, tp, out⟩, hx, h⟩ := C.bind_eq_ok.1 h
        dsimp only at h
        by_cases hr : r ≠ 0
        · rw [if_pos hr] at h
          obtain ⟨ps, -, h⟩ := C.bind_eq_ok.1 h
          cases h
          refine ⟨_, ?_, rfl⟩
          split
          · decide
          · exact hr
        · rw [if_neg hr] at h
          rw [not_not] at hr
          subst hr
          obtain ⟨hI', -, e2, e3, e4, e5⟩ := hB.next hI (by omega) hx
          rw [Build.buf_length] at e5
          obtain ⟨o1, ho, h⟩ := C.bind_eq_ok.1 h
          obtain ⟨r, hr, rfl⟩ := Build.rest_stale hB hs (v := { v with tp }) hI' (by rw [← hv]; exact e2)
            (by dsimp only; rw [e3]; omega) (by
              rw [e5]
              have hn' : 2 ≤ v.tp.n.toNat := hn
              rcases hs with rfl | rfl
              · unfold tpOutputSize
                dsimp only
                rw [hv, e3]
                simp only [msg2Size, hdrSize, msg4Size]
                nlinarith
              · unfold tpOutputSize
                dsimp only
                rw [hv, e3]
                simp only [msg6Size, hdrSize, msg8Size]
                nlinarith) ho
          cases h
          exact ⟨r, hr, rfl⟩
  exact key _ _ h

end

section
variable [Signing] [Hashes] [NoiseCrypto] [Mac] (G : Type) [Ristretto G]

/-- The library as it is built for use moves on step by step. -/
theorem production_regular (tpEnv : PEnv) (env : ℕ → PEnv) : (production G tpEnv env).Regular Good where
  next {c c' input out o} g h5 h := by
    replace h : tpNext G tpEnv.clock tpEnv.log tpEnv.scratch c input out = .ok (0, c', o) := h
    have hk := keep_next G h
    have hp := (tpNext_prev_ok G g (by omega) h).1
    refine ⟨good_next G g h, hp, ?_, hk.1, hk.2.1, (keep_tpNext G h).2⟩
    rw [← hp]
    unfold tpNext at h
    rw [if_neg (by omega)] at h
    obtain ⟨⟨r, s⟩, -, h⟩ := C.bind_eq_ok.1 h
    dsimp only at h
    rw [if_neg (by omega)] at h
    cases h
    rfl

theorem production_pass (tpEnv : PEnv) (env : ℕ → PEnv) : ∀ (i : ℕ) (ps : List PeerState) (cs : List Chan) (net : Chan),
    (production G tpEnv env).pass i ps cs net = Driver.pass G env i ps cs net
  | i, p :: ps, c :: cs, net => by
    unfold Build.pass Driver.pass
    simp only [production_pass tpEnv env (i + 1)]
    rfl
  | _, [], _, _ => by unfold Build.pass Driver.pass; rfl
  | _, _ :: _, [], _ => by unfold Build.pass Driver.pass; rfl

theorem production_inner (tpEnv : PEnv) (env : ℕ → PEnv) : ∀ (k : ℕ) (v : Vars),
    (production G tpEnv env).inner k v = Driver.inner G env k v
  | 0, _ => rfl
  | k + 1, v => by
    unfold Build.inner Driver.inner
    simp only [production_pass, production_inner tpEnv env k]

/-- **C107.** Without test cases, and with those that are shorter than a header, the main loop is that of the test
program (C95). -/
theorem C107_no_cases (tpEnv : PEnv) (env : ℕ → PEnv) (step : ℕ) (l : List Bytes) (hl : ∀ b ∈ l, b.length < 111) :
    ∀ (k : ℕ) (v : Vars), (production G tpEnv env).loop step l k v = Driver.loop G tpEnv env k v
  | 0, _ => rfl
  | k + 1, v => by
    unfold Build.loop Driver.loop
    split
    · rfl
    · simp only [C107_skipped _ _ _ _ fun _ => hl, C.ok_bind, production_inner, C107_no_cases tpEnv env step l hl k]
      rfl

omit [Signing] [Hashes] [NoiseCrypto] [Mac] in
/-- **C107, the variant for peers.** Without test cases of at least a header, the main loops of the two variants are the same. -/
theorem C107_peer_no_cases (B : Build) (step step' : ℕ) (l l' : List Bytes) (hl : ∀ b ∈ l, b.length < 111)
    (hl' : ∀ b ∈ l', b.length < 111) : ∀ (k : ℕ) (v : Vars), v.peers.length = v.nets.length →
    B.loopP step l k v = B.loop step' l' k v
  | 0, _, _ => rfl
  | k + 1, v, hv => by
    have hf : ∀ (k : ℕ) (v : Vars), v.peers ≠ [] → B.fuzzP k step l v = .ok (.over v) := by
      intro k v hne
      obtain ⟨p, ps, e⟩ := List.exists_cons_of_ne_nil hne
      exact C107_peer_skipped k step l v p (by rw [e]; rfl) fun _ => hl
    unfold Build.loopP Build.loop
    split
    · rfl
    · cases tpInputSize v.tp with
      | ub e => rfl
      | ok size =>
        rw [C.ok_bind, C.ok_bind]
        cases recv v.net (B.buf size) with
        | ub e => rfl
        | ok x =>
          obtain ⟨input, net⟩ := x
          rw [C.ok_bind, C.ok_bind]
          dsimp only
          rw [C107_skipped _ _ _ _ fun _ => hl', C.ok_bind]
          dsimp only
          cases B.tpNext v.tp input (B.buf (tpOutputSize v.tp)) with
          | ub e => rfl
          | ok x =>
            obtain ⟨r, tp, out⟩ := x
            rw [C.ok_bind, C.ok_bind]
            dsimp only
            by_cases hr : r ≠ 0
            · rw [if_pos hr, if_pos hr]
            · rw [if_neg hr, if_neg hr]
              cases hs : sendAll tp out tp.n.toNat 0 v.nets with
              | ub e => rfl
              | ok x =>
                rw [C.ok_bind, C.ok_bind]
                cases x with
                | none => rfl
                | some nets =>
                  dsimp only
                  rw [Build.innerF_eq hf _ _ (by dsimp only; rw [hv, sendAll_length _ _ _ _ hs])]
                  cases hi : B.inner (k + 1) ⟨tp, v.peers, net, nets⟩ with
                  | ub e => rfl
                  | ok x =>
                    obtain ⟨r, w⟩ := x
                    rw [C.ok_bind, C.ok_bind]
                    dsimp only
                    by_cases hr : r ≠ 0
                    · rw [if_pos hr, if_pos hr, C.ok_bind]
                    · rw [if_neg hr, if_neg hr, C.ok_bind]
                      rw [not_not] at hr
                      subst hr
                      dsimp only
                      refine C107_peer_no_cases B step step' l l' hl hl' k w ?_
                      rw [(Build.inner_keeps _ _ hi).2, Build.inner_nets _ _ hi]
                      dsimp only
                      rw [hv, sendAll_length _ _ _ _ hs]

end

section Examples
attribute [local instance] Ristretto.toy Toy.hashes Toy.signing Toy.noise Toy.mac

/-- Clock 5, and buffers of zeros. -/
private def env5 : PEnv := ⟨fun _ => 5, true, true, zero32, Toy.rnd, fun _ => 0⟩

private def lib : Build := production (ZMod L) env5 fun _ => env5

private def vars (step : ℕ) : Vars := ⟨Toy.tp step, [], ⟨[], 0⟩, []⟩

/-- `C107_refused`: a case without content is refused behind a short one. -/
example : [1, 2, 3].length < 111 ∧ 111 ≤ (List.replicate 120 (0 : UInt8)).length ∧ freeAll (vars 9).peers = .ok [] ∧
    ∃ r tp o, lib.tpNext (vars 9).tp (List.replicate 120 0) (lib.buf (tpOutputSize (vars 9).tp)) = .ok (r, tp, o) ∧ r ≠ 0 := by
  refine ⟨by decide, by simp, rfl, ?_⟩
  obtain ⟨⟨r, tp, o⟩, h, hr⟩ := Toy.isOk_elim (p := fun x => x.1 != 0)
    (x := lib.tpNext (vars 9).tp (List.replicate 120 0) (lib.buf (tpOutputSize (vars 9).tp))) (by decide +kernel)
  exact ⟨r, tp, o, h, by simpa using hr⟩

/-- `C107_restored_partial`: in step 9 a right case is accepted, and all cases end without an error. -/
example : ∃ v', lib.fuzz 3 9 [[1], Toy.input 9, Toy.input 9] (vars 9) = .ok (.over v') := by
  have h : (match lib.fuzz 3 9 [[1], Toy.input 9, Toy.input 9] (vars 9) with | .ok (.over _) => true | _ => false) = true := by
    decide +kernel
  revert h
  cases lib.fuzz 3 9 [[1], Toy.input 9, Toy.input 9] (vars 9) with
  | ub r => intro h; cases h
  | ok o => cases o with
    | returns r => intro h; cases h
    | over v => exact fun _ => ⟨v, rfl⟩

/-- One peer in `step`, and a trusted party that is done. -/
private def pvars (step : ℕ) : Vars := ⟨Toy.tp 10, [Toy.peer step], ⟨List.replicate 800 0, 0⟩, [⟨[], 0⟩]⟩

/-- `C107_peer_skipped` and `C107_peer_refused`: in step 7 the peer refuses the message that ends the protocol. -/
example : (pvars 7).nets ≠ [] ∧ (pvars 7).peers[0]? = some (Toy.peer 7) ∧ 111 ≤ (Toy.msg 113 21 0 0xff [79, 75]).length ∧
    ∃ r p o, lib.peerNext 0 (Toy.peer 7) (Toy.msg 113 21 0 0xff [79, 75]) (lib.pbuf 0 (peerOutputSize (Toy.peer 7))) =
      .ok (r, p, o) ∧ r ≠ 0 := by
  refine ⟨List.cons_ne_nil _ _, rfl, by decide +kernel, ?_⟩
  obtain ⟨⟨r, tp, o⟩, h, hr⟩ := Toy.isOk_elim (p := fun x => x.1 != 0)
    (x := lib.peerNext 0 (Toy.peer 7) (Toy.msg 113 21 0 0xff [79, 75]) (lib.pbuf 0 (peerOutputSize (Toy.peer 7))))
    (by decide +kernel)
  exact ⟨r, tp, o, h, by simpa using hr⟩

/-- `C107_peer_restored_partial`: in step 9 the peer accepts it. -/
example : ∃ v', lib.fuzzP 3 9 [[1], Toy.msg 113 21 0 0xff [79, 75]] (pvars 9) = .ok (.over v') := by
  have h : (match lib.fuzzP 3 9 [[1], Toy.msg 113 21 0 0xff [79, 75]] (pvars 9) with | .ok (.over _) => true | _ => false) =
      true := by
    decide +kernel
  revert h
  cases lib.fuzzP 3 9 [[1], Toy.msg 113 21 0 0xff [79, 75]] (pvars 9) with
  | ub r => intro h; cases h
  | ok o => cases o with
    | returns r => intro h; cases h
    | over v => exact fun _ => ⟨v, rfl⟩

/-- The end of the protocol: the trusted party is done, and its last message waits for two peers. -/
private def qvars : Vars :=
  let c : Chan := ⟨Toy.msg 113 21 0 0xff [79, 75], 113⟩
  ⟨Toy.tp 10, [Toy.peer 9, { Toy.peer 9 with index := 2 }], ⟨List.replicate 800 0, 0⟩, [c, c]⟩

/-- `C107_peer_network_violated`: the hypotheses hold. -/
example : tpNotDone qvars.tp = false ∧ qvars.peers[0]? = some (Toy.peer 9) ∧
    qvars.peers[1]? = some { Toy.peer 9 with index := 2 } ∧ peerInputSize { Toy.peer 9 with index := 2 } = 113 ∧
    (∃ c, qvars.nets[1]? = some c ∧ c.len = 113) ∧ ∃ v, lib.fuzzP 3 9 [Toy.msg 113 21 0 0xff [79, 75]] qvars = .ok (.over v) := by
  refine ⟨by decide +kernel, rfl, rfl, by decide +kernel, ⟨_, rfl, rfl⟩, ?_⟩
  have h : (match lib.fuzzP 3 9 [Toy.msg 113 21 0 0xff [79, 75]] qvars with | .ok (.over _) => true | _ => false) = true := by
    decide +kernel
  revert h
  cases lib.fuzzP 3 9 [Toy.msg 113 21 0 0xff [79, 75]] qvars with
  | ub r => intro h; cases h
  | ok o => cases o with
    | returns r => intro h; cases h
    | over v => exact fun _ => ⟨v, rfl⟩

/-- And the program ends with an error if it gets the same case twice. -/
example : ∃ r, lib.fuzzP 3 9 [Toy.msg 113 21 0 0xff [79, 75], Toy.msg 113 21 0 0xff [79, 75]] qvars = .ok (.returns r) ∧ r ≠ 0 := by
  have h : (match lib.fuzzP 3 9 [Toy.msg 113 21 0 0xff [79, 75], Toy.msg 113 21 0 0xff [79, 75]] qvars with
      | .ok (.returns r) => r != 0 | _ => false) = true := by
    decide +kernel
  revert h
  cases lib.fuzzP 3 9 [Toy.msg 113 21 0 0xff [79, 75], Toy.msg 113 21 0 0xff [79, 75]] qvars with
  | ub r => intro h; cases h
  | ok o => cases o with
    | returns r => exact fun h => ⟨r, rfl, by simpa using h⟩
    | over v => intro h; cases h

/-- `C107_stale_violated`: the hypotheses hold, with a case that the trusted party accepts in step 1. The program ends with
an error. -/
example : lib.Regular Good ∧ Good (vars 1).tp ∧ (vars 1).tp.step = 1 ∧ 2 ≤ (vars 1).tp.n.toNat ∧
    (vars 1).tp.t.toNat ≤ (vars 1).tp.n.toNat ∧ 111 ≤ (Toy.input 1).length ∧
    (∃ tp o, lib.tpNext (vars 1).tp (Toy.input 1) (lib.buf (tpOutputSize (vars 1).tp)) = .ok (0, tp, o)) := by
  refine ⟨production_regular (ZMod L) _ _, Toy.tp_good (by decide), rfl, by decide, by decide, by decide +kernel, ?_⟩
  obtain ⟨⟨r, tp, o⟩, h, hr⟩ := Toy.isOk_elim (p := fun x => x.1 == 0)
    (x := lib.tpNext (vars 1).tp (Toy.input 1) (lib.buf (tpOutputSize (vars 1).tp))) (by decide +kernel)
  rw [beq_iff_eq] at hr
  dsimp only at hr
  subst hr
  exact ⟨tp, o, h⟩

/-- The error itself: the cases of steps 1 and 2 are both right, the messages of step 2 wait in the network, and the program
returns 1. -/
example : ∃ v : Vars, v.tp = Toy.tp 1 ∧ lib.fuzz 3 1 [Toy.input 1] v = .ok (.returns 1) := by
  refine ⟨⟨Toy.tp 1, [], ⟨Toy.input 2, 636⟩, List.replicate 2 ⟨List.replicate 800 0, 0⟩⟩, rfl, ?_⟩
  have h : (match lib.fuzz 3 1 [Toy.input 1] ⟨Toy.tp 1, [], ⟨Toy.input 2, 636⟩, List.replicate 2 ⟨List.replicate 800 0, 0⟩⟩ with
      | .ok (.returns r) => r == 1 | _ => false) = true := by
    decide +kernel
  revert h
  cases lib.fuzz 3 1 [Toy.input 1] ⟨Toy.tp 1, [], ⟨Toy.input 2, 636⟩, List.replicate 2 ⟨List.replicate 800 0, 0⟩⟩ with
  | ub r => intro h; cases h
  | ok o => cases o with
    | over v => intro h; cases h
    | returns r =>
      intro h
      rw [show r = 1 from by simpa using h]

end Examples

end Verif.Props
