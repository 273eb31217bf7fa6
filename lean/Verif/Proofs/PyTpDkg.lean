import Verif.Model.PyTpDkg
import Verif.Proofs.PyDkg
import Verif.Proofs.Sched

/-!
# `test_tp_dkg` follows the schedule of `Net.run`
-/

set_option linter.unusedSectionVars false

namespace Verif.PyTests.Tp

open Ristretto Verif.Py TpDkg Wire Spec.Wire Honest Props

variable {α : Type}

theorem checked_ok {β : Type} (f : α → β) (a : α) : checked f (.reached (.ok (0, a))) = .ret (f a) := rfl

theorem call_ok (a : α) : call (.ok (0, a)) = .ret a := checked_ok id a

theorem call0_ok (a : α) : call0 (.ok a) = .ret a := rfl

/-- The value `v` is passed as the bytes `m`. -/
def Passed (v : Val) (m : Bytes) : Prop := v.len = some m.length ∧ ∃ r, v.ptr = some (m ++ r)

theorem delivered_nil (tp : TP) (i : ℕ) : delivered tp [] i = [] := by
  unfold delivered
  split
  · exact List.length_eq_zero_iff.1 (by simp [slice])
  · rfl

theorem peerMsg_nil (tp : TP) (i : ℕ) : ∃ v, peerMsg tp [] i = .ret v ∧ Passed v [] :=
  ⟨.str [], rfl, rfl, _, rfl⟩

theorem peerMsg_ok {tp : TP} {out : Bytes} {i sz : ℕ} {off : Option ℕ}
    (h1 : tpPeerMsg tp out.length (UInt8.ofNat i) = (0, some (off, sz))) (h2 : ∀ a, off = some a → a + sz ≤ out.length)
    (h3 : (delivered tp out i).length = sz) : ∃ v, peerMsg tp out i = .ret v ∧ Passed v (delivered tp out i) := by
  by_cases h0 : out.length > 0
  · unfold peerMsg
    rw [if_pos h0, h1]
    dsimp only
    rw [if_neg (by decide)]
    cases off with
    | none =>
      have hd : delivered tp out i = [] := by unfold delivered; rw [h1]
      rw [hd, List.length_nil] at h3
      dsimp only
      rw [if_pos h3.symm, hd]
      exact ⟨_, rfl, rfl, [0], rfl⟩
    | some a =>
      have hd : delivered tp out i = slice out a sz := by unfold delivered; rw [h1]
      dsimp only
      rw [rd_ok (h2 a rfl), call0_ok, ret_bind, hd]
      exact ⟨_, rfl, rfl, [0], rfl⟩
  · obtain rfl : out = [] := List.length_eq_zero_iff.1 (by omega)
    rw [delivered_nil]
    exact peerMsg_nil tp i

variable [Signing] [Hashes] [NoiseCrypto] [Mac] (G : Type) [Ristretto G]

theorem peerNext_ok {e : PEnv} {p p' : PeerState} {v : Val} {m o : Bytes} (hv : Passed v m) (hm : m.length = peerInputSize p)
    (h : TpDkg.peerNext G e.clock e.log e.mlock e.scratch e.rnd p m (List.replicate (peerOutputSize p) 0) = .ok (0, p', o)) :
    checked id (Py.peerNext G e.clock e.log e.mlock e.scratch e.rnd p v) = .ret (p', o) := by
  obtain ⟨hl, r, hr⟩ := hv
  unfold Py.peerNext
  rw [hl, orRaise_some, raiseIf_false (by rw [hm]; simp), hr, orRaise_some, ← hm,
    rd_ok (by rw [List.length_append]; omega), C.ok_bind, List.drop_zero, List.take_left' rfl, h]
  exact checked_ok id _

theorem tpNext_ok {e : PEnv} {c c' : TP} {m o : Bytes} (hm : tpInputSize c = .ok m.length)
    (h : TpDkg.tpNext G e.clock e.log e.scratch c m (List.replicate (tpOutputSize c) 0) = .ok (0, c', o)) :
    checked id (Py.tpNext G e.clock e.log e.scratch c (.bytes m)) = .ret (c', o) := by
  unfold Py.tpNext
  rw [hm]
  dsimp only
  show checked id (orRaise (some m.length) _) = _
  rw [orRaise_some, raiseIf_false (by simp)]
  show checked id (orRaise (some (m ++ [0])) _) = _
  rw [orRaise_some, rd_ok (by rw [List.length_append]; omega), C.ok_bind, List.drop_zero, List.take_left' rfl, h]
  exact checked_ok id _

section
variable {tpEnv : PEnv} {env : ℕ → PEnv}

theorem pass_ok (hz : ∀ i len, (env i).buf len = List.replicate len 0) {tp : TP} {out : Bytes} {msg : ℕ → Bytes} :
    ∀ (ps : List PeerState) (i k : ℕ) (ps' : List PeerState) (w : Bytes),
    (∀ j p, ps[j]? = some p → (∃ v, peerMsg tp out (i + j) = .ret v ∧ Passed v (msg (i + j))) ∧
      (msg (i + j)).length = peerInputSize p) →
    callPeers G env msg i ps = .ok (List.replicate k 0, ps', w) →
    ∃ ms, pass G env tp out i ps = .ret (ps', ms) ∧ ms.flatten = w := by
  intro ps
  induction ps with
  | nil =>
    intro i k ps' w h hc
    unfold callPeers at hc
    have hc := C.ok.inj hc
    rw [Prod.mk.injEq, Prod.mk.injEq] at hc
    obtain ⟨-, rfl, rfl⟩ := hc
    exact ⟨[], rfl, rfl⟩
  | cons p ps ih =>
    intro i k ps' w h hc
    unfold callPeers at hc
    dsimp only at hc
    rw [C.bind_eq_ok] at hc
    obtain ⟨⟨r, p1, o⟩, e1, hc⟩ := hc
    dsimp only at hc
    rw [C.bind_eq_ok] at hc
    obtain ⟨⟨rs, ps1, w1⟩, e2, hc⟩ := hc
    dsimp only at hc
    have hc := C.ok.inj hc
    rw [Prod.mk.injEq, Prod.mk.injEq] at hc
    obtain ⟨hc1, hc2, hc3⟩ := hc
    subst hc2
    subst hc3
    cases k with
    | zero => exact absurd hc1 (by simp)
    | succ k =>
      rw [List.replicate_succ, List.cons.injEq] at hc1
      obtain ⟨rfl, rfl⟩ := hc1
      obtain ⟨⟨v, hv, hpv⟩, hlen⟩ := h 0 p rfl
      rw [Nat.add_zero] at hv hpv hlen
      rw [hz] at e1
      obtain ⟨ms, d1, d2⟩ := ih (i + 1) k ps1 w1
        (fun j p hp => by have := h (j + 1) p (by simpa using hp); rwa [← Nat.add_assoc, Nat.add_right_comm] at this) e2
      refine ⟨if o.length > 0 then o :: ms else ms, ?_, ?_⟩
      · unfold pass
        dsimp only
        rw [hv, ret_bind, peerNext_ok G hpv hlen e1, ret_bind, d1, ret_bind]
      · split
        · rw [List.flatten_cons, d2]
        · rename_i h0
          obtain rfl : o = [] := List.length_eq_zero_iff.1 (by omega)
          rw [d2, List.nil_append]

theorem inner_stop {tp : TP} {out : Bytes} {ps : List PeerState} {ms : List Bytes} (h : ms.flatten ≠ []) (k : ℕ) :
    inner G env tp (k + 1) out ps ms = .ret (ps, ms) := by
  unfold inner
  rw [if_pos fun h' => h (List.length_eq_zero_iff.1 h')]

theorem inner_done {tp : TP} {out : Bytes} {ps : List PeerState} {ms : List Bytes} {p : PeerState} (h0 : ps[0]? = some p)
    (h : 11 ≤ p.step) (k : ℕ) : inner G env tp (k + 1) out ps ms = .ret (ps, ms) := by
  unfold inner
  split
  · rfl
  · rw [h0]
    dsimp only
    rw [if_pos (by unfold peerNotDone; simp; omega)]

theorem inner_pass {tp : TP} {out : Bytes} {ps ps' : List PeerState} {p : PeerState} (h0 : ps[0]? = some p)
    (h : p.step < 11) {ms : List Bytes} (hp : pass G env tp out 0 ps = .ret (ps', ms)) (k : ℕ) {old : List Bytes}
    (ho : old.flatten = []) :
    inner G env tp (k + 1) out ps old = inner G env tp k [] ps' (old ++ ms) := by
  conv_lhs => unfold inner
  rw [ho, if_neg (by simp), h0]
  dsimp only
  rw [if_neg (by unfold peerNotDone; simp; omega), hp, ret_bind]

variable {n : ℕ} {s s' : Net}

theorem inner_idle (hz : ∀ i len, (env i).buf len = List.replicate len 0) (hn : 0 < n) (I : IdleOk G env n s s') (tp : TP)
    {old : List Bytes} (ho : old.flatten = []) :
    ∃ ms, ms.flatten = s'.wire ∧ ∀ k, inner G env tp (k + 1) [] s.peers old = inner G env tp k [] s'.peers ms := by
  have hr := I.idle
  have hres := I.res
  unfold Net.idle at hr
  rw [C.bind_eq_ok] at hr
  obtain ⟨⟨rs, ps', w⟩, e, hr⟩ := hr
  dsimp only at hr
  cases hr
  have hrs : rs = List.replicate n 0 := List.append_cancel_left hres
  subst hrs
  obtain ⟨ms, d1, d2⟩ := pass_ok G hz (tp := tp) (out := []) (msg := fun _ => []) s.peers 0 n ps' w
    (fun j p hp => ⟨peerMsg_nil tp _, by rw [I.size p (List.mem_of_getElem? hp)]; rfl⟩) e
  have h0 : 0 < s.peers.length := by rw [I.len]; exact hn
  refine ⟨old ++ ms, ?_, fun k => inner_pass G (List.getElem?_eq_getElem h0) (I.step _ (List.getElem_mem h0)) d1 k ho⟩
  rw [List.flatten_append, ho, d2, I.wire]

theorem loop_round (hz : ∀ i len, (env i).buf len = List.replicate len 0) (hzt : ∀ len, tpEnv.buf len = List.replicate len 0)
    (hn : 0 < n) (R : RoundOk G tpEnv env n s s') {old : List Bytes} (ho : old.flatten = s.wire) :
    ∃ ms, ms.flatten = s'.wire ∧ ∀ k, loop G tpEnv env (k + 1) s.tp s.peers old =
      (inner G env s'.tp k [] s'.peers ms >>= fun y => loop G tpEnv env k s'.tp y.1 y.2) := by
  have hr := R.round
  have hres := R.res
  unfold Net.round at hr
  rw [C.bind_eq_ok] at hr
  obtain ⟨⟨r, tp', out⟩, et, hr⟩ := hr
  dsimp only at hr
  rw [C.bind_eq_ok] at hr
  obtain ⟨⟨rs, ps', w⟩, e, hr⟩ := hr
  dsimp only at hr
  cases hr
  dsimp only
  have hrs := List.append_cancel_left hres
  rw [List.cons.injEq] at hrs
  obtain ⟨rfl, rfl⟩ := hrs
  obtain ⟨ms, d1, d2⟩ := pass_ok G hz (tp := tp') (out := out) (msg := delivered tp' out) s.peers 0 n ps' w (by
    intro j p hp
    obtain ⟨a, b, c⟩ := R.peers p (List.mem_of_getElem? hp)
    obtain ⟨off, h1, h2, h3⟩ := C32_tp_to_peer G _ _ _ _ _ _ _ _ R.good R.ne7 et p a b c j (by
      have := (List.getElem?_eq_some_iff.1 hp).1
      rw [R.len] at this
      rw [R.tpn]
      exact this)
    rw [Nat.zero_add]
    exact ⟨peerMsg_ok h1 h2 h3, h3⟩) e
  have h0 : 0 < s.peers.length := by rw [R.len]; exact hn
  have hst : (s.peers[0]).step < 11 := by
    have := (R.peers _ (List.getElem_mem h0)).2.2
    have := R.le9
    rw [‹(s.peers[0]).step = _›]
    unfold consumer
    split <;> omega
  obtain ⟨l, hl⟩ := R.sizes
  refine ⟨ms, d2, fun k => ?_⟩
  rw [hzt] at et
  conv_lhs => unfold loop
  rw [if_neg (by have := R.le9; unfold tpNotDone; simp; omega), hl, call0_ok, ret_bind, ho, tpNext_ok G R.size et, ret_bind]
  dsimp only
  rw [inner_pass G (List.getElem?_eq_getElem h0) hst d1 k rfl, List.nil_append]

theorem Runs.pos {k : ℕ} (r : Runs G tpEnv env n k s s') : 0 < k := by
  cases r <;> omega

/-- The main loop. -/
theorem loop_runs (hz : ∀ i len, (env i).buf len = List.replicate len 0) (hzt : ∀ len, tpEnv.buf len = List.replicate len 0)
    (hn : 0 < n) {m : ℕ} (r : Runs G tpEnv env n m s s') : ∀ {old : List Bytes}, old.flatten = s.wire →
    (s'.peers.length = n) → ∀ k, loop G tpEnv env (k + m + 1) s.tp s.peers old = .ret (s'.tp, s'.peers) := by
  induction r with
  | last h hw ht hp =>
    rename_i s s'
    intro old ho hlen k
    obtain ⟨ms, d1, d2⟩ := loop_round G hz hzt hn h ho
    have h0 : 0 < s'.peers.length := by omega
    rw [d2 (k + 1), inner_done G (List.getElem?_eq_getElem h0) (hp _ (List.getElem_mem h0)) k, ret_bind]
    dsimp only
    unfold loop
    rw [if_pos (by unfold tpNotDone; rw [ht]; rfl)]
  | round h hw r ih =>
    rename_i m s s' s''
    intro old ho hlen k
    obtain ⟨ms, d1, d2⟩ := loop_round G hz hzt hn h ho
    rw [← Nat.add_assoc, d2 (k + m + 1), inner_stop G (by rw [d1]; exact hw), ret_bind]
    exact ih d1 hlen k
  | idle h i hw r ih =>
    rename_i m s s1 s2 s''
    intro old ho hlen k
    obtain ⟨ms, d1, d2⟩ := loop_round G hz hzt hn h ho
    obtain ⟨ms', f1, f2⟩ := inner_idle G hz hn i s1.tp (old := ms) (by rw [d1, i.wire])
    have hpos := Runs.pos G r
    obtain ⟨m', rfl⟩ : ∃ m', m = m' + 1 := ⟨m - 1, by omega⟩
    have htp : s2.tp = s1.tp := by
      have hr := i.idle
      unfold Net.idle at hr
      rw [C.bind_eq_ok] at hr
      obtain ⟨x, -, hr⟩ := hr
      have := C.ok.inj hr
      rw [← this]
    rw [← Nat.add_assoc, d2 (k + (m' + 1) + 1), f2, ← Nat.add_assoc, inner_stop G (by rw [f1]; exact hw), ret_bind]
    have := ih f1 hlen k
    rw [htp] at this
    exact this

end

/-! ## Start and end -/

variable {S : Setup} {lo : ℕ}

theorem startAll_ok {m : Bytes} {c1 c : ℕ → PeerState} : ∀ (k i : ℕ),
    (∀ j, i ≤ j → j < i + k →
      startPeer (S.peer0 j) ((S.env j).clock (S.peer0 j).ticks) S.eps (S.env j).log (Signing.skOf (S.lt j)) m = .ok (0, c1 j) ∧
      peerSetBufs (c1 j) (S.peer0 j).sigPks (S.peer0 j).noisePks (S.peer0 j).outs (S.peer0 j).ins (S.peer0 j).shares
        (S.peer0 j).xshares (S.peer0 j).commitments (S.peer0 j).complaints (S.peer0 j).mine (S.peer0 j).lastTs = .ok (c j)) →
    startAll S m k i = .ret ((List.range' i k).map c)
  | 0, _, _ => rfl
  | k + 1, i, h => by
    obtain ⟨h1, h2⟩ := h i (le_refl i) (by omega)
    unfold startAll
    dsimp only
    rw [h1, call_ok, ret_bind, h2, call0_ok, ret_bind, startAll_ok k (i + 1) fun j a b => h j (by omega) (by omega), ret_bind]
    rfl

theorem sameStart_ok {tp : TP} {c : ℕ → PeerState} : ∀ (k i : ℕ),
    (∀ j, i ≤ j → j < i + k → (c j).sid = tp.sid ∧ (c j).ltSk = Signing.skOf (S.lt j)) →
    sameStart S tp i ((List.range' i k).map c) = .ret ()
  | 0, _, _ => rfl
  | k + 1, i, h => by
    obtain ⟨h1, h2⟩ := h i (le_refl i) (by omega)
    rw [List.range'_succ, List.map_cons]
    unfold sameStart
    rw [h1, assertEqual_self, ret_bind, h2, assertEqual_self, ret_bind]
    exact sameStart_ok k (i + 1) fun j a b => h j (by omega) (by omega)

theorem freeAll_ok : ∀ (ps : List PeerState), (∀ p ∈ ps, Driver.Alive S p) → freeAll ps = .ret ()
  | [], _ => rfl
  | p :: ps, h => by
    obtain ⟨p', h1⟩ := Driver.peerFree_ok (h p List.mem_cons_self)
    unfold freeAll
    rw [h1, call0_ok, ret_bind, freeAll_ok ps fun q hq => h q (List.mem_cons_of_mem _ hq)]

theorem zeroed_buf (e : PEnv) (len : ℕ) : (zeroed e).buf len = List.replicate len 0 := by
  apply List.ext_getElem
  · simp [PEnv.buf]
  · intro i h1 h2
    simp [PEnv.buf, zeroed]

/-- The test up to the check of the shares. -/
theorem program_eq (check : List Bytes → Run Unit) {I : Input} (hS : I.setup.Honest lo) : ∀ k, program G check (k + 10) I =
    check (((List.range 5).map (finalShare I.setup)).map pack) := by
  have hn : I.setup.n.toNat = 5 := rfl
  obtain ⟨tp, m, h1, tp', h2, h3, h4, h5, h6⟩ := startTp_honest hS
  have hp := fun i hi => startPeer_honest (btp := I.setup.tpEnv.clock tp'.ticks) hS (i := i) hi h1
    (tp_mono hS (by rw [h4]; omega))
  haveI : Nonempty PeerState := ⟨I.setup.peer0 0⟩
  choose! c1 cs0 hc using hp
  have M0 : Between I.setup lo 0 (clk I.setup cs0) (fun _ _ => True) 0 0 tp' cs0 :=
    ⟨h6 _ fun j hj => hS.later j hj _, fun i hi => ⟨_, (hc i hi).2.2.2.2.2 _, trivial⟩, h5,
      fun i hi => (hc i hi).2.2.1, fun i hi => (hc i hi).2.2.2.1.trans h3.symm⟩
  obtain ⟨g0, -, -⟩ := good_start h1 hS.tp_commitments hS.tp_complaints hS.tp_encShares
    (show (List.replicate (3 * 3 - 1) _).length = _ by rw [List.length_replicate]; rfl)
    hS.tp_sigPks (by simp [Setup.ltPks]) hS.tp_lastTs h2
  obtain ⟨s, cs, r, -, hps, hcs⟩ := runs_honest G (res := []) hS M0 (fun i hi => (hc i hi).2.2.2.2.1) g0
  rw [hn] at r hps hcs
  intro k
  have hloop := loop_runs G (fun i len => zeroed_buf _ len) (fun len => zeroed_buf _ len) (by decide) r (old := []) rfl
    (by rw [hps]; simp) k
  unfold program
  dsimp only
  rw [h1, call_ok, ret_bind, h2, call0_ok, ret_bind, startAll_ok 5 0 fun j _ hj => ⟨(hc j (by rw [hn]; omega)).1,
    (hc j (by rw [hn]; omega)).2.1⟩, ret_bind, sameStart_ok 5 0 fun j _ hj => ⟨by
      obtain ⟨K, A, -⟩ := M0.pAt j (by rw [hn]; omega)
      rw [A.sid, M0.tpAt.sid], (hc j (by rw [hn]; omega)).2.2.2.2.1⟩, ret_bind]
  have e0 : (List.range' 0 5).map cs0 = (List.range 5).map cs0 := rfl
  rw [e0]
  rw [show loop G I.setup.tpEnv I.setup.env (k + 10) tp' ((List.range 5).map cs0) [] = _ from hloop, ret_bind]
  dsimp only
  rw [freeAll_ok (S := I.setup) s.peers (by
    rw [hps]
    intro p hp
    obtain ⟨i, hi, rfl⟩ := List.mem_map.1 hp
    exact (hcs i (List.mem_range.1 hi)).2)]
  have e : s.peers.map (fun p => pack p.share) = ((List.range 5).map (finalShare I.setup)).map pack := by
    rw [hps, List.map_map, List.map_map]
    apply List.map_congr_left
    intro i hi
    simp only [Function.comp]
    rw [(hcs i (List.mem_range.1 hi)).1]
  rw [e]
  cases check (((List.range 5).map (finalShare I.setup)).map pack) <;> rfl

end Verif.PyTests.Tp
