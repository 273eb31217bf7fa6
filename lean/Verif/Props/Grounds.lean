import Verif.Proofs.Grounds
import Verif.Props.TpVerdict

/-!
# Property C63: reports have a ground in what the reported peer sent (`/repo/src/tp-dkg.c`)
-/

set_option linter.unusedSectionVars false

namespace Verif.Props

open TpDkg Wire Spec.Wire Spec H Ristretto

section
variable [Signing] [Hashes] (G : Type) [Ristretto G] [NoiseCrypto] [Mac]

/-- The expected messages are from peers and at least as long as a header. -/
theorem expected_peer {c : TP} {input : Bytes} {m : ℕ} {e : Exp} (h : (expected c input)[m]? = some e) :
    e.i < c.n.toNat ∧ 111 ≤ e.len := by
  have hm := List.mem_of_getElem? h
  unfold expected at hm
  dsimp only at hm
  have sq : ∀ {k}, k < c.n.toNat * c.n.toNat → 0 < c.n.toNat := by
    intro k hk
    rcases Nat.eq_zero_or_pos c.n.toNat with h | h
    · rw [h] at hk; omega
    · exact h
  split at hm
  · obtain ⟨k, hk, rfl⟩ := List.mem_map.1 hm
    exact ⟨List.mem_range.1 hk, by show 111 ≤ 175; omega⟩
  · obtain ⟨k, hk, rfl⟩ := List.mem_map.1 hm
    exact ⟨Nat.mod_lt _ (sq (List.mem_range.1 hk)), by show 111 ≤ 159; omega⟩
  · obtain ⟨k, hk, rfl⟩ := List.mem_map.1 hm
    exact ⟨Nat.mod_lt _ (sq (List.mem_range.1 hk)), by show 111 ≤ 159; omega⟩
  · obtain ⟨k, hk, rfl⟩ := List.mem_map.1 hm
    exact ⟨List.mem_range.1 hk, by show 111 ≤ msg6Size c.t; unfold msg6Size; omega⟩
  · obtain ⟨k, hk, rfl⟩ := List.mem_map.1 hm
    exact ⟨Nat.mod_lt _ (sq (List.mem_range.1 hk)), by show 111 ≤ 256; omega⟩
  · obtain ⟨k, hk, rfl⟩ := List.mem_map.1 hm
    exact ⟨List.mem_range.1 hk, by show 111 ≤ msg9Size c.n; unfold msg9Size; omega⟩
  · obtain ⟨k, hk, rfl⟩ := List.mem_map.1 (List.mem_filter.1 hm).1
    exact ⟨List.mem_range.1 hk, by show 111 ≤ 111 + _; omega⟩
  · obtain ⟨k, hk, rfl⟩ := List.mem_map.1 hm
    exact ⟨List.mem_range.1 hk, by show 111 ≤ 143; omega⟩
  · obtain ⟨k, hk, rfl⟩ := List.mem_map.1 hm
    exact ⟨List.mem_range.1 hk, by show 111 ≤ 113; omega⟩
  · cases hm

/-- **C63.** In all steps but the one that judges complaints, every report that a call writes has a ground: the message of
the reported peer was rejected, it complained about somebody who is not a peer or twice about the same peer, there are at
least `t²` complaints, or it sent another transcript. -/
theorem C63_grounds (clock : ℕ → UInt64) (log : Bool) (scratch : B32) (c c' : TP) (input out o : Bytes) (r : Int)
    (h7 : c.step ≠ 7) (hr : tpNext G clock log scratch c input out = .ok (r, c', o)) :
    ∃ new, c'.log = c.log ++ new ∧ ∀ x ∈ new, Ground clock c input x := (grounds G h7 hr).1

/-- **C63.** Authentic messages with fitting timestamps are accepted, whatever the clock says. -/
theorem C63_timely_accepted (clock : ℕ → UInt64) (c : TP) (input : Bytes) (i : ℕ)
    (h : ∀ m e, (expected c input)[m]? = some e → e.i = i → Timely c input m e) : FineMessages clock c input i := by
  intro m e he hi k hk last hlast
  obtain ⟨hb, ⟨sig, hd, body, h1, h2, h3, h4, h5, h6, h7⟩, ht⟩ := h m e he hi
  obtain ⟨_, hl⟩ := expected_peer he
  subst hi
  obtain ⟨t1, t2, t3, t4⟩ := ht last hlast
  have hts : tsAt input e.off = hd.ts := by
    unfold tsAt
    rw [← slice_slice (l := e.len) (by omega), h1]
    unfold slice
    rw [encode_ts]
    apply UInt64.toNat_inj.1
    rw [htonll_u64 (by simp), beNat_beBytes, Nat.mod_eq_of_lt (by simpa using hd.ts.toNat_lt)]
  rw [hts] at t3 t4
  have hc : checkTs (clock k) c.eps last hd.ts = (0, hd.ts, 0) := by
    unfold checkTs
    rw [if_neg (by rintro rfl; simp at t1), if_neg (by rw [gt_iff_lt, UInt64.lt_iff_toNat_lt]; omega), if_neg]
    rw [gt_iff_lt, UInt64.lt_iff_toNat_lt, UInt64.toNat_add, Nat.mod_eq_of_lt t2]
    omega
  refine ⟨hd.ts, 0, ?_⟩
  rw [recvMsg_encode hb hl h1]
  unfold recvPure
  rw [hc]
  simp [h2, h3, h4, h5, h6, h7]

theorem zero_ne_idx {i n : ℕ} (hi : i < n) (hn : n ≤ 128) : (0 : UInt8) ≠ idx i := by
  intro h
  have := congrArg UInt8.toNat h
  rw [idx_toNat (by omega)] at this
  simp at this

/-- **C63.** In all steps but the one that judges complaints, a peer that sent nothing wrong is not reported and not
named. -/
theorem C63_fine_not_reported (clock : ℕ → UInt64) (log : Bool) (scratch : B32) (c c' : TP) (input out o : Bytes) (r : Int)
    (h7 : c.step ≠ 7) (hn : c.n.toNat ≤ 128) (hr : tpNext G clock log scratch c input out = .ok (r, c', o)) (i : ℕ)
    (hi : i < c.n.toNat) (hf : Fine G clock c input i) (new : List Cheater) (hnew : c'.log = c.log ++ new) :
    ∀ rec ∈ new, rec.peer ≠ idx i ∧ (cheaterMsg rec).1 ≠ idx i := by
  obtain ⟨new', hnew', hg⟩ := C63_grounds G clock log scratch c c' input out o r h7 hr
  have : new' = new := List.append_cancel_left (hnew'.symm.trans hnew)
  subst this
  have hz := zero_ne_idx hi hn
  have rest : ∀ rec : Cheater, rec.peer ≠ idx i → rec.error ≠ 128 → rec.peer ≠ idx i ∧ (cheaterMsg rec).1 ≠ idx i := by
    intro rec h1 h2
    refine ⟨h1, fun h => ?_⟩
    rcases named_only rec with h' | h' | h'
    · exact hz (h'.symm.trans h)
    · exact h1 (h'.symm.trans h)
    · exact h2 h'.1
  intro rec hrec
  obtain ⟨m, e, r', x, ⟨he, k, last, last', q, hk, hp, hr'⟩, h0⟩ | ⟨j, k, x, h6, hj, hk, h⟩ | ⟨j, k, k', x, h6, hj, hk, hk', h⟩ |
    ⟨ps, x, h6, hd, hl, h⟩ | ⟨j, x, h8, hj, h⟩ := hg rec hrec
  · have he1 := (expected_peer he).1
    refine rest _ (fun h => ?_) ?_
    · have hei : e.i = i := idx_inj he1 hi hn h
      subst hei
      obtain ⟨l, q', h'⟩ := hf.messages m e he rfl k hk last hp
      rw [h'] at hr'
      simp only [C.ok.injEq, Prod.mk.injEq] at hr'
      exact h0 hr'.1.symm
    · have hrange := recvMsg_range hr'
      have hbase : e.base = 64 ∨ e.base = 1 ∨ e.base = 32 := by
        have hm := List.mem_of_getElem? he
        unfold expected at hm
        dsimp only at hm
        split at hm
        all_goals first
          | (obtain ⟨k, hk, rfl⟩ := List.mem_map.1 hm; first | exact .inl rfl | exact .inr (.inl rfl))
          | (obtain ⟨k, hk, rfl⟩ := List.mem_map.1 (List.mem_filter.1 hm).1; exact .inr (.inr rfl))
          | cases hm
      dsimp only
      omega
  · refine rest _ (fun e => ?_) (by show (7 : Int) ≠ 128; decide)
    have : j = i := idx_inj hj hi hn e
    subst this
    have := (hf.complaints h6 k hk).1
    rcases h with h | h
    · rw [h] at this
      simp at this
    · rw [UInt8.lt_iff_toNat_lt] at h
      omega
  · refine rest _ (fun e => ?_) (by show (8 : Int) ≠ 128; decide)
    have : j = i := idx_inj hj hi hn e
    subst this
    exact (hf.complaints h6 k hk).2 k' hk' h
  · refine rest _ (fun e => ?_) (by show (6 : Int) ≠ 128; decide)
    have := congrArg UInt8.toNat e
    rw [idx_toNat (by omega)] at this
    have h254 : (0xfe : UInt8).toNat = 254 := rfl
    dsimp only at this
    omega
  · refine rest _ (fun e => ?_) (by show (1 : Int) ≠ 128; decide)
    have : j = i := idx_inj hj hi hn e
    subst this
    exact h (hf.hash h8)

/-- What a call in step 7 does to the log, whatever it returns. -/
theorem step7_log {clock : ℕ → UInt64} {log : Bool} {scratch : B32} {c c' : TP} {input out o : Bytes} {r : Int} (g : Good c)
    (h7 : c.step = 7) (ht : 1 ≤ c.t.toNat) (hr : tpNext G clock log scratch c input out = .ok (r, c', o)) :
    ∃ new, c'.log = c.log ++ new ∧ ∀ x ∈ new, Origin G clock scratch c input x := by
  by_cases h12 : r = 1 ∨ r = 2
  · have h9 : c.step ≤ 9 := by omega
    by_cases hw : input.length ≠ off18 c.known c.n.toNat ∨ out.length ≠ tpOutputSize c
    · have hsz := tpInputSize_good g
      rw [if_pos h7] at hsz
      have hw' := wp_wrong G (s := ⟨c, out, 0, 0, []⟩) (clock := clock) (log := log) (scratch := scratch) (input := input)
        h9 hsz hw
      obtain ⟨s, hE | hQ, rfl, rfl⟩ := tpNext_elim G h9 hw' hr
      · rw [hE.2]
        refine ⟨[], ?_, by simp⟩
        unfold after
        split <;> simp [TP.log]
      · exact hQ.elim
    · rw [not_or, not_not, not_not] at hw
      have hw' := wp_tp18 G (clock := clock) (log := log) (scratch := scratch) (input := input) (s := ⟨c, out, 0, 0, []⟩)
        g.wf rfl ht (g.seven h7).2 h7 (g.seven h7).1 hw.1 (by rw [hw.2]; simp [tpOutputSize, h7])
      have hh : tpHandler G clock log scratch input c.step = tp18 G clock log scratch input := by rw [h7]; rfl
      rw [← hh] at hw'
      obtain ⟨s, hE | hQ, _, _⟩ := tpNext_elim G h9 hw' hr
      · have := hE.1; omega
      · have := hQ.1; omega
  · rw [not_or] at h12
    exact (step7 G g h7 ht hr h12.1 h12.2).1

/-- **C63.** In the step that judges complaints, a peer that sent nothing wrong, revealed keys under which its shares are
right, and has complained only about shares that are not right is named, if at all, because an accused peer has not
answered its complaint. -/
theorem C63_fine_judged (clock : ℕ → UInt64) (log : Bool) (scratch : B32) (c c' : TP) (input out o : Bytes) (r : Int)
    (g : Good c) (h7 : c.step = 7) (ht : 1 ≤ c.t.toNat) (hr : tpNext G clock log scratch c input out = .ok (r, c', o)) (i : ℕ)
    (hi : i < c.n.toNat) (hf : Fine G clock c input i) (new : List Cheater) (hnew : c'.log = c.log ++ new) :
    ∀ rec ∈ new, (cheaterMsg rec).1 = idx i → rec.step = 18 ∧ rec.error = 7 ∧ rec.peer = idx i ∧
      ∃ j < c.n.toNat, rec.other = idx j ∧ pair (idx i) (idx j) ∈ c.known ∧ Silent clock c input i j := by
  have hn := g.wf.n_le
  obtain ⟨new', hnew', hg⟩ := step7_log G g h7 ht hr
  have : new' = new := List.append_cancel_left (hnew'.symm.trans hnew)
  subst this
  have hz := zero_ne_idx hi hn
  intro rec hrec hname
  obtain ⟨hk, honce⟩ := hf.answers h7
  have hrange : ∀ {x : UInt8} {j : ℕ}, pair x (idx j) ∈ c.known → 1 ≤ x.toNat ∧ x.toNat ≤ c.n.toNat := by
    intro x j hp
    obtain ⟨a, b, ha, hb, e⟩ := (g.seven h7).2.range _ hp
    rw [(pair_inj e).1]; exact ha
  obtain ⟨e18, ⟨j, hj, hc, hp, _, r', hr0, ⟨k, l, q, hk', hr'⟩, herr⟩ | ⟨j, hj, hc, _, k, hkj, hp, ho, hrep⟩ | ⟨herr, hmem, j, hj, ho, hs⟩⟩ :=
    hg rec hrec
  · -- a rejected answer
    exfalso
    have hne : rec.error ≠ 128 := by
      have := recvMsg_range hr'
      omega
    rcases named_only rec with h' | h' | h'
    · exact hz (h'.symm.trans hname)
    · have hji : j = i := idx_inj hj hi hn (hp.symm.trans (h'.symm.trans hname))
      subst hji
      have hin : exp18 c j ∈ expected c input := by
        unfold expected
        rw [h7]
        exact List.mem_filter.2 ⟨mem_exps hj, decide_eq_true hc⟩
      obtain ⟨m, hm⟩ := List.mem_iff_getElem?.1 hin
      obtain ⟨l', q', h''⟩ := hf.messages m _ hm rfl k hk' _ (.inl rfl)
      rw [show (exp18 c j).i = j from rfl] at hr' h''
      rw [h''] at hr'
      simp only [C.ok.injEq, Prod.mk.injEq] at hr'
      exact hr0 hr'.1.symm
    · exact hne h'.1
  · -- a revealed key
    exfalso
    by_cases hji : j = i
    · subst hji
      obtain ⟨a1, a2, a3, a4⟩ := hk k hkj
      rcases hrep with ⟨_, h⟩ | ⟨_, _, hjd⟩
      · rcases h with h | h
        · exact h a1
        · refine (not_congr fresh_iff).1 (not_not.2 h) ?_
          intro k' hk' e
          have := honce k' (by omega) k hkj e
          omega
      · have e128 := (judged_named G (inv := 0) g.wf ht hj (hrange a1) a2.symm a3 hjd).2.1 a4
        have := (named (e := rec.error) (peer := rec.peer) (other := rec.other) (inv := rec.invalidIndex)).2 e128
        have hrec' : rec = ⟨18, rec.error, rec.peer, rec.other, rec.invalidIndex⟩ := by rw [← e18]
        rw [← hrec', hname] at this
        exact a2 (ho.symm.trans this.symm)
    · have hpn : rec.peer ≠ idx i := fun h => hji (idx_inj hj hi hn (hp.symm.trans h))
      rcases named_only rec with h' | h' | ⟨e128, h'⟩
      · exact hz (h'.symm.trans hname)
      · exact hpn (h'.symm.trans hname)
      · have hoi : keyFor input c.known j k = idx i := ho.symm.trans (h'.symm.trans hname)
        rcases hrep with ⟨e6, _⟩ | ⟨hkn, _, j', r', l, q, _, hr', hop⟩
        · omega
        · rw [hoi] at hkn hop
          rcases hop with ⟨_, he⟩ | ⟨_, hop⟩
          · have := recvMsg_range hr'
            omega
          · have hne : idx j ≠ idx i := fun h => hji (idx_inj hj hi hn h)
            rcases hop.verdict G g.wf ht hj (hrange hkn) hne with ⟨h1, _⟩ | ⟨_, h2⟩
            · exact hf.accusations h7 j hj hji k hkj hoi hkn h1
            · omega
  · have h128 : rec.error ≠ 128 := by omega
    have hpi : rec.peer = idx i := by
      rcases named_only rec with h' | h' | h'
      · exact absurd (h'.symm.trans hname) hz
      · exact h'.symm.trans hname
      · exact absurd h'.1 h128
    refine ⟨e18, herr, hpi, j, hj, ho, by rw [← hpi, ← ho]; exact hmem, ?_⟩
    rcases hs with hs | hs
    · exact .inl hs
    · refine .inr ?_
      rw [hpi, ho] at hs
      exact fresh_iff.1 hs

/-- **C63.** In a whole run a peer that never sends anything wrong is named, if at all, for a complaint that the accused
has not answered. What is missing is that it is not named at all, see `C63_silence_violated`. -/
theorem C63_fine_run_partial (clock : ℕ → UInt64) (log : Bool) (scratch : B32) (c c' : TP) (calls : List (Bytes × Bytes))
    (g : Good c) (ht : 1 ≤ c.t.toNat) (i : ℕ) (hi : i < c.n.toNat) (hf : FineRun G clock log scratch i c calls)
    (hr : tpAfter G clock log scratch c calls = .ok c') :
    ∃ new, c'.log = c.log ++ new ∧ ∀ rec ∈ new, (cheaterMsg rec).1 = idx i →
      rec.step = 18 ∧ rec.error = 7 ∧ rec.peer = idx i := by
  induction calls generalizing c with
  | nil =>
    cases hr
    exact ⟨[], by simp, by simp⟩
  | cons a calls ih =>
    obtain ⟨input, out⟩ := a
    unfold tpAfter at hr
    rw [C.bind_eq_ok] at hr
    obtain ⟨⟨r, c1, o⟩, h1, h2⟩ := hr
    obtain ⟨hf1, hf2⟩ := hf
    have hk := (keep_tpNext G h1).1
    obtain ⟨new2, hn2, hx2⟩ := ih c1 (good_next G g h1) (by rw [show c1.t = c.t from hk.t]; exact ht)
      (by rw [show c1.n = c.n from hk.n]; exact hi) (hf2 r c1 o h1) h2
    have first : ∃ new1, c1.log = c.log ++ new1 ∧ ∀ rec ∈ new1, (cheaterMsg rec).1 = idx i →
        rec.step = 18 ∧ rec.error = 7 ∧ rec.peer = idx i := by
      by_cases h7 : c.step = 7
      · obtain ⟨new1, hn1, _⟩ := step7_log G g h7 ht h1
        refine ⟨new1, hn1, fun rec hrec hname => ?_⟩
        have := C63_fine_judged G clock log scratch c c1 input out o r g h7 ht h1 i hi hf1 new1 hn1 rec hrec hname
        exact ⟨this.1, this.2.1, this.2.2.1⟩
      · obtain ⟨⟨new1, hn1, _⟩, _⟩ := grounds G h7 h1
        refine ⟨new1, hn1, fun rec hrec hname => ?_⟩
        exact absurd hname
          (C63_fine_not_reported G clock log scratch c c1 input out o r h7 g.wf.n_le h1 i hi hf1 new1 hn1 rec hrec).2
    obtain ⟨new1, hn1, hx1⟩ := first
    refine ⟨new1 ++ new2, by rw [hn2, hn1, List.append_assoc], fun rec hrec => ?_⟩
    rcases List.mem_append.1 hrec with h | h
    · exact hx1 rec h
    · exact hx2 rec h

end

/-! ### Witness and examples -/

section
attribute [local instance] Ristretto.toy Toy.hashes Toy.signing Toy.noise Toy.mac

/-- Peer 1 has complained about peer 2; the answer of peer 2 is not a message. Nothing is wrong with peer 1. -/
theorem silent_fine : Fine (ZMod L) (fun _ => 5) Toy.tp7 (List.replicate 144 0) 0 := by
  have h0 : ∀ {k}, k < cnt Toy.tp7.known 0 → False := fun {k} h => by
    have : cnt Toy.tp7.known 0 = 0 := by decide +kernel
    omega
  refine ⟨?_, fun h => absurd h (by decide), fun _ => ⟨fun k hk => (h0 hk).elim, fun k hk => (h0 hk).elim⟩, ?_,
    fun h => absurd h (by decide)⟩
  · intro m e he hi
    exfalso
    have hm := List.mem_of_getElem? he
    obtain ⟨_, h⟩ := List.mem_filter.1 hm
    rw [hi] at h
    exact h0 (of_decide_eq_true h)
  · intro _ j hj hji k hk h
    exfalso
    have hj1 : j = 1 := by
      have : Toy.tp7.n.toNat = 2 := rfl
      omega
    subst hj1
    have hk0 : k = 0 := by
      have : cnt Toy.tp7.known 1 = 1 := by decide +kernel
      omega
    subst hk0
    revert h
    decide +kernel

/-- **C63, violated.** A peer that sent nothing wrong is named if the peer that it complained about does not answer. -/
theorem C63_silence_violated : ∃ (c c' : TP) (calls : List (Bytes × Bytes)) (i : ℕ), Good c ∧ 1 ≤ c.t.toNat ∧
    i < c.n.toNat ∧ FineRun (ZMod L) (fun _ => 5) true zero32 i c calls ∧
    tpAfter (ZMod L) (fun _ => 5) true zero32 c calls = .ok c' ∧ c.log = [] ∧ ∃ rec ∈ c'.log, (cheaterMsg rec).1 = idx i := by
  obtain ⟨r, c', o, h1, h2⟩ := Toy.holds_elim (p := fun _ c _ => c.log.any fun rec => (cheaterMsg rec).1 == idx 0)
    (x := Toy.run true Toy.tp7 (List.replicate 144 0)) (by decide +kernel)
  obtain ⟨rec, hrec, hname⟩ := List.any_eq_true.1 h2
  refine ⟨Toy.tp7, c', [(List.replicate 144 0, List.replicate (tpOutputSize Toy.tp7) 0)], 0, Toy.tp7_good, by decide, by decide,
    ⟨silent_fine, fun _ _ _ _ => trivial⟩, ?_, rfl, rec, hrec, by simpa using hname⟩
  unfold Toy.run at h1
  unfold tpAfter
  rw [h1]
  rfl

/-- The answers in the confirmation step: peer 1 sends the hash of the transcript, peer 2 another one. -/
def otherHash : Bytes :=
  Toy.msg 143 20 1 0 (1 :: List.replicate 31 0) ++ Toy.msg 143 20 2 0 (List.replicate 32 0)

/-- C63: the messages of both peers are authentic and timely. -/
theorem otherHash_timely : ∀ m e, (expected (Toy.tp 8) otherHash)[m]? = some e → Timely (Toy.tp 8) otherHash m e := by
  intro m e he
  have hm : m < 2 := by
    by_contra hc
    rw [List.getElem?_eq_none] at he
    · cases he
    · exact (show (expected (Toy.tp 8) otherHash).length = 2 from rfl) ▸ (by omega)
  have hp : ∀ last, Previous (Toy.tp 8) otherHash m e.i last → last = 5 := by
    rintro last (h | ⟨m', hm', e', he', hi, h⟩)
    · rw [h]
      have hm' : m = 0 ∨ m = 1 := by omega
      rcases hm' with rfl | rfl <;> cases he <;> rfl
    · exfalso
      have h1 : m = 1 := by omega
      have h0 : m' = 0 := by omega
      subst h1 h0
      cases he
      cases he'
      cases hi
  have key : e.off + e.len ≤ otherHash.length ∧ tsAt otherHash e.off = 5 ∧
      Authentic (slice otherHash e.off e.len) e.len e.msgno (idx e.i) e.rcp e.pk zero32 := by
    have hm' : m = 0 ∨ m = 1 := by omega
    rcases hm' with rfl | rfl <;> cases he
    · refine ⟨by decide +kernel, by decide +kernel, toB64 (Header.mk 20 143 1 0 5 zero32).encode, ⟨20, 143, 1, 0, 5, zero32⟩,
        1 :: List.replicate 31 0, by decide +kernel, rfl, rfl, rfl, rfl, rfl, by decide +kernel⟩
    · refine ⟨by decide +kernel, by decide +kernel, toB64 (Header.mk 20 143 2 0 5 zero32).encode, ⟨20, 143, 2, 0, 5, zero32⟩,
        List.replicate 32 0, by decide +kernel, rfl, rfl, rfl, rfl, rfl, by decide +kernel⟩
  refine ⟨key.1, key.2.2, fun last hl => ?_⟩
  rw [hp last hl, key.2.1]
  decide

/-- C63: nothing is wrong with peer 1, and the log names peer 2 alone. -/
example : Good (Toy.tp 8) ∧ FineRun (ZMod L) (fun _ => 5) true zero32 0 (Toy.tp 8)
      [(otherHash, List.replicate (tpOutputSize (Toy.tp 8)) 0)] ∧
    ∃ c', tpAfter (ZMod L) (fun _ => 5) true zero32 (Toy.tp 8)
        [(otherHash, List.replicate (tpOutputSize (Toy.tp 8)) 0)] = .ok c' ∧ c'.log.map cheaterMsg = [(2, .mismatch 2)] := by
  refine ⟨Toy.tp_good (by decide), ⟨⟨C63_timely_accepted _ _ _ _ fun m e he _ => otherHash_timely m e he,
    fun h => absurd h (by decide), fun h => absurd h (by decide), fun h => absurd h (by decide), fun _ => ?_⟩,
    fun _ _ _ _ => trivial⟩, ?_⟩
  · unfold sameHash
    decide +kernel
  · obtain ⟨r, c', o, h1, h2⟩ := Toy.holds_elim (p := fun _ c _ => c.log.map cheaterMsg == [(2, .mismatch 2)])
      (x := Toy.run true (Toy.tp 8) otherHash) (by decide +kernel)
    refine ⟨c', ?_, by simpa using h2⟩
    unfold Toy.run at h1
    unfold tpAfter
    rw [h1]
    rfl

/-- C63: peer 2 is accused, answers with the right key, and is not named; the step is the one that judges complaints. -/
example : Good exampleTp ∧ exampleTp.step = 7 ∧ 1 ≤ exampleTp.t.toNat ∧ Fine (ZMod L) (fun _ => 5) exampleTp (Toy.input 7) 1 ∧
    ∃ r c' o, Toy.run true exampleTp (Toy.input 7) = .ok (r, c', o) ∧ c'.log.map cheaterMsg = [(1, .falselyAccused 2 1)] := by
  have hcnt : cnt exampleTp.known 1 = 1 := by decide +kernel
  refine ⟨exampleTp_good, rfl, by decide, ⟨?_, fun h => absurd h (by decide), fun _ => ⟨?_, ?_⟩, ?_,
    fun h => absurd h (by decide)⟩, ?_⟩
  · intro m e he hi k hk last hp
    have hlen : (expected exampleTp (Toy.input 7)).length = 1 := by
      have : (expected exampleTp (Toy.input 7)).map Exp.i = [1] := by decide +kernel
      simpa using congrArg List.length this
    have hm : m = 0 := by
      by_contra hc
      rw [List.getElem?_eq_none (by omega)] at he
      cases he
    obtain ⟨_, he'⟩ := List.mem_filter.1 (List.mem_of_getElem? he)
    obtain ⟨i, _, rfl⟩ := List.mem_map.1 (List.mem_filter.1 (List.mem_of_getElem? he)).1
    have hi1 : i = 1 := hi
    subst hi1
    rcases hp with rfl | ⟨m', hm', _⟩
    · exact exampleTp_answered.1 k hk
    · omega
  · intro k hk
    have hk0 : k = 0 := by omega
    subst hk0
    have e1 : keyFor (Toy.input 7) exampleTp.known 1 0 = 1 := by decide +kernel
    have e2 : keyOf (Toy.input 7) exampleTp.known 1 0 = toB32 (List.replicate 32 9) := by decide +kernel
    rw [e1, e2]
    exact ⟨by decide +kernel, by decide, exampleTp_stored, exampleTp_right⟩
  · intro k hk k' hk' _
    omega
  · intro _ j hj hji k hk
    exfalso
    have hj0 : j = 0 := by
      have : exampleTp.n.toNat = 2 := rfl
      omega
    subst hj0
    have : cnt exampleTp.known 0 = 0 := by decide +kernel
    omega
  · obtain ⟨r, c, o, h1, h2⟩ := Toy.holds_elim (p := fun _ c _ => c.log.map cheaterMsg == [(1, .falselyAccused 2 1)])
      (x := Toy.run true exampleTp (Toy.input 7)) (by decide +kernel)
    exact ⟨r, c, o, h1, by simpa using h2⟩

end

end Verif.Props
