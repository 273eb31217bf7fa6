import Verif.Proofs.Driver
import Verif.Proofs.PeerToy
import Verif.Props.Secrecy

/-!
# Property C95: the test program of the key generation (`/repo/src/tests/tp-dkg.c:79-99`, `357-584`)

The specification of the result is `shareAt`: the value at `x` of the sum of the polynomials that the peers drew.
-/

set_option linter.unusedSectionVars false

namespace Verif.Props

open TpDkg TpDkg.Driver Wire Spec Tests Ristretto

/-! ## The network -/

/-- Several messages are sent one after the other. -/
def sends (c : Chan) : List Bytes → C Chan
  | [] => .ok c
  | m :: ms => do
    let c ← send c m
    sends c ms

theorem sends_holds : ∀ (ms : List Bytes) (c : Chan) (m : Bytes), Holds c m → m.length + ms.flatten.length < netSize →
    ∃ c', sends c ms = .ok c' ∧ Holds c' (m ++ ms.flatten)
  | [], c, m, h, _ => ⟨c, rfl, by simpa using h⟩
  | x :: ms, c, m, h, hl => by
    rw [List.flatten_cons, List.length_append] at hl
    obtain ⟨c1, e1, h1⟩ := send_ok (x := x) h (by omega)
    obtain ⟨c2, e2, h2⟩ := sends_holds ms c1 (m ++ x) h1 (by rw [List.length_append]; omega)
    refine ⟨c2, ?_, by rw [List.flatten_cons, ← List.append_assoc]; exact h2⟩
    unfold sends
    rw [e1, C.ok_bind, e2]

/-- **C95, the network.** What is sent over an empty channel is received as one piece, in order, if it fits in the network
buffer and is asked for as a whole. The channel is empty again. -/
theorem C95_network_partial (buf : Vector UInt8 netSize) (ms : List Bytes) (into : Bytes) (h : ms.flatten.length < netSize)
    (hi : into.length = ms.flatten.length) :
    ∃ c c', sends ⟨buf.toList, 0⟩ ms = .ok c ∧ recv c into = .ok (ms.flatten, c') ∧ c'.len = 0 ∧ c'.buf.length = netSize := by
  obtain ⟨c, e, hc⟩ := sends_holds ms ⟨buf.toList, 0⟩ [] ⟨Vector.length_toList, rfl, rfl⟩ (by rw [List.length_nil]; omega)
  rw [List.nil_append] at hc
  obtain ⟨c', e', hc'⟩ := recv_all hc hi
  exact ⟨c, c', e, e', hc'.len, hc'.size⟩

/-- **C95, negation: the network is no queue.** `_recv` always reads from the start of the buffer. After the first of two
messages of the same length has been received, the second call gets the first message again. -/
theorem C95_queue_violated (buf : Vector UInt8 netSize) (a b into : Bytes) (h0 : 0 < a.length) (hab : b.length = a.length)
    (h : 2 * a.length < netSize) (hi : into.length = a.length) :
    ∃ c c1 c2, sends ⟨buf.toList, 0⟩ [a, b] = .ok c ∧ recv c into = .ok (a, c1) ∧ recv c1 into = .ok (a, c2) := by
  obtain ⟨c, e, hc⟩ := sends_holds [a, b] ⟨buf.toList, 0⟩ [] ⟨Vector.length_toList, rfl, rfl⟩
    (by simp; omega)
  have hfl : [] ++ [a, b].flatten = a ++ b := by simp
  rw [hfl] at hc
  have ht : c.buf.take a.length = a := by
    have := congrArg (List.take a.length) hc.bytes
    rwa [List.take_take, List.take_left' rfl, List.length_append, Nat.min_eq_left (by omega)] at this
  have hl : c.len = a.length + a.length := by rw [hc.len, List.length_append, hab]
  have r : ∀ x : Chan, x.buf = c.buf → a.length ≤ x.len →
      recv x into = .ok (a, { x with len := x.len - a.length }) := by
    intro x hx hlen
    unfold recv
    rw [if_neg (by omega), rd_ok (by rw [hx, hc.size]; omega), C.ok_bind, hx, List.drop_zero, hi, ht]
  exact ⟨c, _, _, e, r c rfl (by omega), r _ rfl (by show a.length ≤ c.len - a.length; omega)⟩

/-- **C95, negation: the network loses messages.** `_send` silently drops a message that does not fit. -/
theorem C95_drop_violated (c : Chan) (m : Bytes) (h : netSize ≤ c.len + m.length) : send c m = .ok c := by
  unfold send
  rw [if_pos (.inl h)]

/-! ## The program -/

/-- The sum of the polynomials of the peers at `x`. -/
noncomputable def shareAt (I : Input) (x : ℕ) : ZMod L :=
  ∑ j ∈ Finset.range I.n.toNat, ∑ k ∈ Finset.range I.t.toNat, ((I.env j).rnd.coeff k).val * (x : ZMod L) ^ k

/-- Admissible arguments, clocks that run forward within a window of `ts_epsilon = 120000` seconds (with no clock of a peer
behind the first time that the trusted party notes), random values as drawn by the library, different Noise keys, and
enough memory that can be locked. -/
structure Works [NoiseCrypto] (I : Input) (lo : ℕ) : Prop where
  t_ge : 2 ≤ I.t.toNat
  t_lt : I.t.toNat < I.n.toNat
  n_le : I.n.toNat ≤ 128
  window : 120000 ≤ lo
  no_wrap : lo + 2 * 120000 < 2 ^ 64
  tpClock : GoodClock lo 120000 I.tpEnv.clock
  clock : ∀ i < I.n.toNat, GoodClock lo 120000 (I.env i).clock
  later : ∀ i < I.n.toNat, ∀ k, I.tpEnv.clock (I.tp0.ticks + 1) ≤ (I.env i).clock k
  mlock : ∀ i < I.n.toNat, (I.env i).mlock = true
  coeff : ∀ i < I.n.toNat, ∀ k, RandomScalar ((I.env i).rnd.coeff k)
  keys : ∀ i < I.n.toNat, ∀ j < I.n.toNat,
    NoiseCrypto.xbase (I.env i).rnd.noiseSk = NoiseCrypto.xbase (I.env j).rnd.noiseSk → i = j
  rand : ∀ k i, I.rand k i ≤ randMax

section
variable [Signing] [Hashes] [NoiseCrypto] [Mac] (G : Type) [Ristretto G]

theorem Works.honest {I : Input} {lo : ℕ} (h : Works I lo) : I.setup.Honest lo where
  t_ge := h.t_ge
  t_lt := h.t_lt
  n_le := h.n_le
  name_pos := show 1 ≤ 10 by decide
  name_le := show 10 ≤ 1024 by decide
  msg0 := Vector.length_toList
  tp_lastTs := by simp [Input.setup]
  tp_sigPks := by simp [Input.setup]
  tp_commitments := by simp [Input.setup]
  tp_complaints := by simp [Input.setup]
  tp_encShares := by
    show (List.replicate (I.n.toNat * I.n.toNat * msg8Size) (0 : UInt8)).length = _
    rw [List.length_replicate]
    rfl
  tp_cheaters := by simp [Input.setup]
  lastTs := fun _ _ => by simp [Input.setup]
  sigPks := fun _ _ => by simp [Input.setup]
  noisePks := fun _ _ => by simp [Input.setup]
  outs := fun _ _ => by simp [Input.setup]
  ins := fun _ _ => by simp [Input.setup]
  shares := fun _ _ => by simp [Input.setup]
  xshares := fun _ _ => by simp [Input.setup]
  mine := fun _ _ => by simp [Input.setup]
  commitments := fun _ _ => by simp [Input.setup]
  complaints := fun _ _ => by simp [Input.setup]
  window := h.window
  lo_pos := by have := h.window; omega
  no_wrap := h.no_wrap
  tpClock := h.tpClock
  clock := h.clock
  mlock := h.mlock
  coeff := h.coeff
  keys := h.keys
  later := h.later

theorem finalShare_value {I : Input} {lo : ℕ} (h : Works I lo) {i : ℕ} (hi : i < I.n.toNat) :
    maskedVal (Honest.finalShare I.setup i).value = shareAt I (i + 1) := by
  have hx : (point (idx i) : ZMod L) = ((i + 1 : ℕ) : ZMod L) := by
    unfold point
    rw [idx_toNat (by have := h.n_le; omega)]
  have hd : ∀ j, (Honest.dealtTo I.setup j i).value.val =
      ∑ k ∈ Finset.range I.t.toNat, ((I.env j).rnd.coeff k).val * ((i + 1 : ℕ) : ZMod L) ^ k := by
    intro j
    show (B32.ofZ ((Dkg.dealer I.t.toNat (I.env j).rnd.coeff).eval (point (idx i)))).val = _
    rw [B32.val_ofZ, hx]
    unfold Dkg.dealer
    rw [polyOf_eval_sum]
    simp only [List.length_map, List.length_range]
    refine Finset.sum_congr rfl fun k hk => ?_
    rw [List.getD_eq_getElem?_getD, List.getElem?_map, List.getElem?_range (Finset.mem_range.1 hk)]
    rfl
  unfold Honest.finalShare shareAt
  dsimp only
  rw [maskedVal_ofZ]
  have : ∀ (f : ℕ → ZMod L) m, ((List.range m).map f).sum = ∑ j ∈ Finset.range m, f j := by
    intro f m
    induction m with
    | zero => rfl
    | succ m ih => rw [List.range_succ, List.map_append, List.sum_append, ih, Finset.sum_range_succ]; simp
  rw [this]
  exact Finset.sum_congr rfl fun j _ => hd j

theorem shares_ok {I : Input} {lo : ℕ} (h : Works I lo) {cs : ℕ → PeerState}
    (hcs : ∀ i < I.n.toNat, (cs i).share = Honest.finalShare I.setup i) :
    (((List.range I.n.toNat).map cs).map (·.share)).length = I.n.toNat ∧
    ((((List.range I.n.toNat).map cs).map (·.share)).map (·.index)).Nodup ∧
    0 ∉ (((List.range I.n.toNat).map cs).map (·.share)).map (·.index) ∧
    (∀ i < I.n.toNat, ∃ s, (((List.range I.n.toNat).map cs).map (·.share))[i]? = some s ∧
      maskedVal s.value = shareAt I (i + 1)) ∧
    OnOne I.t.toNat (((List.range I.n.toNat).map cs).map (·.share)) := by
  have e : ((List.range I.n.toNat).map cs).map (·.share) = (List.range I.n.toNat).map (Honest.finalShare I.setup) := by
    rw [List.map_map]
    exact List.map_congr_left fun i hi => hcs i (List.mem_range.1 hi)
  obtain ⟨f, f1, -, f3⟩ := Honest.final_onPoly h.honest
  rw [e]
  refine ⟨by simp, ?_, ?_, ?_, f, f1, ?_⟩
  · rw [List.map_map]
    refine List.Nodup.map_on ?_ List.nodup_range
    intro a ha b hb hab
    have h1 := (f3 a (List.mem_range.1 ha)).1
    have h2 := (f3 b (List.mem_range.1 hb)).1
    simp only [Function.comp_apply] at hab
    rw [hab] at h1
    omega
  · rw [List.map_map]
    intro h0
    obtain ⟨a, ha, h1⟩ := List.mem_map.1 h0
    have h2 := (f3 a (List.mem_range.1 ha)).1
    simp only [Function.comp_apply] at h1
    rw [h1] at h2
    exact absurd h2 (by simp)
  · intro i hi
    exact ⟨_, by rw [List.getElem?_map, List.getElem?_range hi]; rfl, finalShare_value h hi⟩
  · intro s hs
    obtain ⟨i, hi, rfl⟩ := List.mem_map.1 hs
    obtain ⟨-, h1, h2⟩ := f3 i (List.mem_range.1 hi)
    rw [maskedVal_canonical h1, h2]

/-- **C95.** If all goes well the program succeeds: for all `2 ≤ t < n ≤ 128`, all random values, clocks within the window and
contents of uninitialised memory, and all values of `rand()`, `main` returns 0, provided that no share is 0. The main
loop needs 10 passes. Missing: shares that are 0 (next theorem) and the size of the stack. -/
theorem C95_succeeds_partial (I : Input) (lo : ℕ) (h : Works I lo)
    (hz : ∀ x, 1 ≤ x → x ≤ I.n.toNat → shareAt I x ≠ 0) (k : ℕ) : main G (k + 10) I = .ok 0 := by
  obtain ⟨v, cs, h1, h2, h3, h4⟩ := main_eq G h.honest
  obtain ⟨s1, s2, s3, s4, s5⟩ := shares_ok h fun i hi => (h3 i hi).1
  have ht := h.t_ge
  have htn := h.t_lt
  rw [h4 k]
  unfold finish
  rw [if_pos h1, h2, C94_accepts G I.junk I.scratch I.rand h.rand _ _ (by omega) (by rw [s1]; omega) s2 s3 (by
    intro s hs
    obtain ⟨i, hi⟩ := List.getElem?_of_mem hs
    have hlt := (List.getElem?_eq_some_iff.1 hi).1
    rw [s1] at hlt
    obtain ⟨s', e1, e2⟩ := s4 i hlt
    rw [hi] at e1
    cases e1
    rw [e2]
    exact hz (i + 1) (by omega) (by omega)) s5, C.ok_bind, if_neg (by decide)]
  obtain ⟨ps, hps⟩ := freeAll_ok (S := I.setup) ((List.range I.n.toNat).map cs) fun p hp => by
    obtain ⟨i, hi, rfl⟩ := List.mem_map.1 hp
    exact (h3 i (List.mem_range.1 hi)).2
  rw [hps, C.ok_bind]

/-- **C95, negation: a correct run that the program reports as a failure.** All parties follow the protocol and the shares are
correct, but one of the first `t` shares is 0: `main` returns 1. -/
theorem C95_zero_violated (I : Input) (lo : ℕ) (h : Works I lo)
    (hz : ∃ x, 1 ≤ x ∧ x ≤ I.t.toNat ∧ shareAt I x = 0) (k : ℕ) : main G (k + 10) I = .ok 1 := by
  obtain ⟨v, cs, h1, h2, h3, h4⟩ := main_eq G h.honest
  obtain ⟨s1, s2, s3, s4, f, hf, he⟩ := shares_ok h fun i hi => (h3 i hi).1
  obtain ⟨x, x1, x2, x3⟩ := hz
  have ht := h.t_ge
  have htn := h.t_lt
  have hn := h.n_le
  rw [h4 k]
  unfold finish
  rw [if_pos h1, h2]
  generalize hsh : ((List.range I.n.toNat).map cs).map (·.share) = shares at *
  have hg := good_range (shares := shares) (by omega)
  have hlt : ∀ k ∈ ((List.range shares.length).map UInt8.ofNat).take I.t.toNat, k.toNat < shares.length :=
    fun k hk => hg.lt k (List.mem_of_mem_take hk)
  obtain ⟨r, hr1, hr2⟩ := pass_eq G I.junk I.scratch shares I.t.toNat (by omega) (by omega) s2 s3 _ hg f hf
    (fun s hs => he s (mem_pick hlt hs))
  obtain ⟨s, e1, e2⟩ := s4 (x - 1) (by omega)
  have hmem : s ∈ pick shares (((List.range shares.length).map UInt8.ofNat).take I.t.toNat) := by
    refine List.mem_map.2 ⟨UInt8.ofNat (x - 1), ?_, ?_⟩
    · rw [← List.map_take, List.take_range]
      exact List.mem_map.2 ⟨x - 1, List.mem_range.2 (by omega), rfl⟩
    · rw [toNat_range (n := shares.length) (by omega) (by omega), List.getD_eq_getElem?_getD, e1]
      rfl
  rcases hr2 with ⟨e3, -⟩ | ⟨-, w, e3⟩
  · refine absurd ?_ (e3 s hmem)
    show maskedVal s.value = 0
    rw [e2, Nat.sub_add_cancel x1, x3]
  · unfold verifyShares
    rw [if_neg (by omega)]
    simp only [hr1, C.ok_bind, e3]
    rfl

/-- **C95.** The program returns 1 for arguments that the protocol does not allow, except those of the next theorem. -/
theorem C95_refuses (I : Input) (k : ℕ) (h0 : I.n ≠ 0) (h : I.n.toNat < 2 ∨ 128 < I.n.toNat ∨ I.n.toNat ≤ I.t.toNat) :
    main G k I = .ok 1 := by
  unfold main
  dsimp only
  rw [if_neg h0]
  have : startTp I.setup.tp0 (I.setup.tpEnv.clock I.setup.tp0.ticks) I.setup.eps I.setup.n I.setup.t I.setup.name I.setup.sid
      I.setup.seed I.setup.msg0 = .ok (1, I.setup.tp0, I.setup.msg0) := by
    unfold startTp
    rw [if_pos]
    show 2 > I.n ∨ I.t ≥ I.n ∨ I.n > 128
    simp only [gt_iff_lt, ge_iff_le, UInt8.lt_iff_toNat_lt, UInt8.le_iff_toNat_le]
    show I.n.toNat < 2 ∨ I.n.toNat ≤ I.t.toNat ∨ 128 < I.n.toNat
    omega
  rw [this, C.ok_bind]
  rfl

/-- **C95, negation: undefined behaviour.** The trusted party accepts the thresholds 0 and 1. The program then declares an array
of `t * t - 1 ≤ 0` elements. -/
theorem C95_threshold_violated (I : Input) (k : ℕ) (hn : 2 ≤ I.n.toNat) (hn' : I.n.toNat ≤ 128) (ht : I.t.toNat ≤ 1) :
    main G k I = .ub .vla := by
  obtain ⟨r, c, m, h, h0, -⟩ := C51_tp_accepts_partial I.setup.tp0 (I.setup.tpEnv.clock I.setup.tp0.ticks) I.setup.eps I.n I.t
    I.setup.name I.setup.msg0 I.setup.sid I.setup.seed
  obtain rfl : r = 0 := h0.2 ⟨hn, hn', by omega, show 1 ≤ 10 by decide, show 10 ≤ 1024 by decide, Vector.length_toList⟩
  unfold main
  dsimp only
  rw [if_neg (by intro h0; rw [h0] at hn; exact absurd hn (by decide))]
  have h : startTp I.setup.tp0 (I.setup.tpEnv.clock I.setup.tp0.ticks) I.setup.eps I.setup.n I.setup.t I.setup.name I.setup.sid
      I.setup.seed I.setup.msg0 = .ok (0, c, m) := h
  rw [h, C.ok_bind]
  dsimp only
  rw [if_neg (by decide), if_pos (by have := Nat.mul_le_mul ht ht; omega)]

/-- **C95.** The program returns 0 only if all parties were started and the run from there, over empty channels, ended without
recorded cheater and with shares that passed the check. -/
theorem C95_zero_means (I : Input) (k : ℕ) (h : main G k I = .ok 0) :
    ∃ tp m tp' ps ps' nets v,
      startTp I.setup.tp0 (I.tpEnv.clock I.tp0.ticks) 120000 I.n I.t protoName I.sid I.seed I.msg0.toList = .ok (0, tp, m) ∧
      tpSetBufs tp (I.tpEnv.clock tp.ticks) I.setup.tp0.commitments I.setup.tp0.complaints I.setup.tp0.encShares
        I.setup.tp0.cheaters I.setup.tp0.cheaterMax I.setup.tp0.sigPks I.setup.ltPks I.setup.tp0.lastTs = .ok tp' ∧
      startAll I.setup m I.n.toNat 0 = .ok (0, ps) ∧ setAll I.setup 0 ps = .ok ps' ∧
      (nets.length = I.n.toNat ∧ ∀ c ∈ nets, c.len = 0) ∧
      loop G I.tpEnv I.env k ⟨tp', ps', ⟨(I.bufs 0).toList, 0⟩, nets⟩ = .ok (.over v) ∧ v.tp.cheaterLen = 0 ∧
      verifyShares G I.junk I.scratch I.rand (v.peers.map (·.share)) I.t.toNat = .ok 0 := by
  have returns : ∀ (m : ℕ) (v0 : Vars) (r : Int), loop G I.tpEnv I.env m v0 = .ok (.returns r) → r ≠ 0 := by
    intro m
    induction m with
    | zero => intro v0 r h; cases h
    | succ m ih =>
      intro v0 r h
      unfold loop at h
      split at h
      · cases h
      · simp only [C.bind_eq_ok] at h
        obtain ⟨size, -, ⟨input, net⟩, -, ⟨r1, tp, out⟩, -, h⟩ := h
        dsimp only at h
        split at h
        · rename_i hr1
          rw [C.bind_eq_ok] at h
          obtain ⟨ps, -, h⟩ := h
          split at h <;> cases h
          exact hr1
        · rw [C.bind_eq_ok] at h
          obtain ⟨o, -, h⟩ := h
          cases o with
          | none => cases h; decide
          | some nets =>
            dsimp only at h
            rw [C.bind_eq_ok] at h
            obtain ⟨⟨r2, v2⟩, -, h⟩ := h
            dsimp only at h
            split at h
            · rename_i hr2
              cases h
              exact hr2
            · exact ih _ _ h
  unfold main at h
  dsimp only at h
  split at h
  · cases h
  rw [C.bind_eq_ok] at h
  obtain ⟨⟨r, tp, m⟩, h1, h⟩ := h
  dsimp only at h
  split at h
  · rename_i hr
    cases h
    exact absurd rfl hr
  rename_i hr
  rw [ne_eq, not_not] at hr
  subst hr
  split at h
  · cases h
  rw [C.bind_eq_ok] at h
  obtain ⟨tp', h2, h⟩ := h
  rw [C.bind_eq_ok] at h
  obtain ⟨⟨r, ps⟩, h3, h⟩ := h
  dsimp only at h
  split at h
  · rename_i hr
    cases h
    exact absurd rfl hr
  rename_i hr
  rw [ne_eq, not_not] at hr
  subst hr
  rw [C.bind_eq_ok] at h
  obtain ⟨ps', h4, h⟩ := h
  rw [C.bind_eq_ok] at h
  obtain ⟨o, ho, h⟩ := h
  cases o with
  | returns r =>
    dsimp only at h
    cases h
    exact absurd rfl (returns _ _ _ ho)
  | over v =>
    dsimp only at h
    refine ⟨tp, m, tp', ps, ps', _, v, h1, h2, h3, h4, ⟨?_, ?_⟩, ho, ?_⟩
    · rw [List.length_map, List.length_range]
      rfl
    · intro c hc
      obtain ⟨i, -, rfl⟩ := List.mem_map.1 hc
      rfl
    unfold finish at h
    split at h
    · rename_i hc
      rw [C.bind_eq_ok] at h
      obtain ⟨r, hr, h⟩ := h
      split at h
      · cases h
      · rename_i hr0
        rw [ne_eq, not_not] at hr0
        subst hr0
        exact ⟨hc, hr⟩
    · rw [C.bind_eq_ok] at h
      obtain ⟨_, -, h⟩ := h
      cases h

end

section Toy
attribute [local instance] Ristretto.toy Toy.hashes Toy.signing Toy.noise Toy.mac

/-- Three peers, threshold 2; peer `i` draws the polynomial `a i + b i * X`. -/
def toyInput (a b : ℕ → B32) : Input where
  n := 3
  t := 2
  sid := zero32
  seed := zero32
  lt := fun i => B32.ofNat (i + 40)
  tpEnv := ⟨fun _ => 200000, false, true, zero32, Toy.rnd, fun _ => 0⟩
  env := fun i => ⟨fun _ => 200001, false, true, zero32,
    { Toy.rnd with noiseSk := B32.ofNat i, coeff := fun k => if k % 2 = 0 then a i else b i }, fun _ => 0⟩
  tp0 := Toy.tp3 0
  peer0 := fun _ => Toy.peer 0
  msg0 := Vector.replicate 177 0
  lastTs := fun _ => 0
  noisePks := fun _ _ => zero32
  bufs := fun _ => Vector.replicate netSize 0
  rand := fun k i => (7 * k + i) % 1000
  junk := 0
  scratch := zero32

theorem toyInput_works (a b : ℕ → B32) (ha : ∀ i, RandomScalar (a i)) (hb : ∀ i, RandomScalar (b i)) :
    Works (toyInput a b) 150000 where
  t_ge := show 2 ≤ 2 by decide
  t_lt := show 2 < 3 by decide
  n_le := show 3 ≤ 128 by decide
  window := by decide
  no_wrap := by decide
  tpClock := ⟨fun _ _ _ => UInt64.le_refl _, fun _ => show 150000 ≤ 200000 by decide, fun _ => show 200000 ≤ 270000 by decide⟩
  clock := fun _ _ => ⟨fun _ _ _ => UInt64.le_refl _, fun _ => show 150000 ≤ 200001 by decide,
    fun _ => show 200001 ≤ 270000 by decide⟩
  later := fun _ _ _ => show (200000 : UInt64) ≤ 200001 by decide
  mlock := fun _ _ => rfl
  coeff := by
    intro i _ k
    show RandomScalar (if k % 2 = 0 then a i else b i)
    split
    · exact ha i
    · exact hb i
  keys := by
    intro i hi j hj
    have hi : i < 3 := hi
    have hj : j < 3 := hj
    show B32.ofNat i = B32.ofNat j → i = j
    interval_cases i <;> interval_cases j <;> decide +kernel
  rand := fun k i => (Nat.mod_lt _ (by decide) : (7 * k + i) % 1000 < 1000).le.trans (by decide)

theorem toyInput_share (a b : B32) (x : ℕ) : shareAt (toyInput (fun _ => a) (fun _ => b)) x = 3 * (a.val + b.val * x) := by
  show ∑ j ∈ Finset.range 3, ∑ k ∈ Finset.range 2, (if k % 2 = 0 then a else b).val * (x : ZMod L) ^ k = _
  simp [Finset.sum_range_succ]
  ring

/-- The peers draw 1 and 1: the shares 6, 9 and 12. -/
example : main (ZMod L) 10 (toyInput (fun _ => B32.ofNat 1) (fun _ => B32.ofNat 1)) = .ok 0 := by
  have h1 : RandomScalar (B32.ofNat 1) := by unfold RandomScalar B32.Canonical; decide +kernel
  have hv : (B32.ofNat 1).val = 1 := by decide +kernel
  refine C95_succeeds_partial (ZMod L) _ _ (toyInput_works _ _ (fun _ => h1) (fun _ => h1)) ?_ 0
  intro x x1 x3
  have x3 : x ≤ 3 := x3
  rw [toyInput_share, hv]
  interval_cases x <;> decide +kernel

/-- The peers draw 1 and `L - 1`: the share of the first peer is 0. -/
example : main (ZMod L) 10 (toyInput (fun _ => B32.ofNat 1) (fun _ => B32.ofNat (L - 1))) = .ok 1 := by
  have h1 : RandomScalar (B32.ofNat 1) := by unfold RandomScalar B32.Canonical; decide +kernel
  have h2 : RandomScalar (B32.ofNat (L - 1)) := by unfold RandomScalar B32.Canonical; decide +kernel
  refine C95_zero_violated (ZMod L) _ _ (toyInput_works _ _ (fun _ => h1) (fun _ => h2)) ⟨1, le_refl _, by decide, ?_⟩ 0
  rw [toyInput_share]
  decide +kernel

/-- Arguments that are refused. -/
example : main (ZMod L) 10 { toyInput (fun _ => zero32) (fun _ => zero32) with t := 3 } = .ok 1 :=
  C95_refuses (ZMod L) _ _ (by decide) (.inr (.inr (by decide)))

/-- Arguments with undefined behaviour. -/
example : main (ZMod L) 10 { toyInput (fun _ => zero32) (fun _ => zero32) with t := 1 } = .ub .vla :=
  C95_threshold_violated (ZMod L) _ _ (by decide) (by decide) (by decide)

end Toy

/-- Two messages and a buffer for both. -/
example (buf : Vector UInt8 netSize) : ∃ c c', sends ⟨buf.toList, 0⟩ [[1, 2], [3]] = .ok c ∧
    recv c [0, 0, 0] = .ok ([1, 2, 3], c') ∧ c'.len = 0 ∧ c'.buf.length = netSize :=
  C95_network_partial buf [[1, 2], [3]] [0, 0, 0] (by decide) rfl

/-- Two different messages of the same length: the first is received twice. -/
example (buf : Vector UInt8 netSize) : ∃ c c1 c2, sends ⟨buf.toList, 0⟩ [[1, 2], [3, 4]] = .ok c ∧
    recv c [0, 0] = .ok ([1, 2], c1) ∧ recv c1 [0, 0] = .ok ([1, 2], c2) :=
  C95_queue_violated buf [1, 2] [3, 4] [0, 0] (by decide) rfl (by decide) rfl

/-- A full channel. -/
example (buf : Vector UInt8 netSize) : send ⟨buf.toList, netSize - 1⟩ [1] = .ok ⟨buf.toList, netSize - 1⟩ :=
  C95_drop_violated _ _ (show netSize ≤ netSize - 1 + 1 by decide)

end Verif.Props
