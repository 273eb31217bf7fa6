import Verif.Model.Driver
import Verif.Proofs.HonestStart
import Verif.Proofs.PeerSafe
import Verif.Props.ShareCheck

/-!
# The test program of the key generation follows the schedule of `Net.run`
-/

set_option linter.unusedSectionVars false

namespace Verif.TpDkg.Driver

open Wire Spec.Wire Honest Props

/-! ## The network -/

/-- The channel holds the bytes `m`. -/
structure Holds (c : Chan) (m : Bytes) : Prop where
  size : c.buf.length = netSize
  len : c.len = m.length
  bytes : c.buf.take m.length = m

theorem Holds.le {c : Chan} {m : Bytes} (h : Holds c m) : m.length ≤ netSize := by
  have := congrArg List.length h.bytes
  rw [List.length_take, h.size] at this
  omega

theorem send_ok {c : Chan} {m x : Bytes} (h : Holds c m) (hx : m.length + x.length < netSize) :
    ∃ c', send c x = .ok c' ∧ Holds c' (m ++ x) := by
  unfold send
  by_cases h0 : x.length = 0
  · rw [if_pos (.inr h0)]
    exact ⟨c, rfl, by rw [List.length_eq_zero_iff.1 h0, List.append_nil]; exact h⟩
  · rw [if_neg (by rw [h.len]; omega), wr_ok (by rw [h.size, h.len]; omega), C.ok_bind]
    refine ⟨_, rfl, ⟨?_, by rw [h.len, List.length_append], ?_⟩⟩
    · show (c.buf.take c.len ++ x ++ c.buf.drop (c.len + x.length)).length = netSize
      rw [List.length_append, List.length_append, List.length_take, List.length_drop, h.size, h.len]
      omega
    · show (c.buf.take c.len ++ x ++ c.buf.drop (c.len + x.length)).take (m ++ x).length = m ++ x
      rw [h.len, h.bytes, List.take_left' rfl]

theorem recv_all {c : Chan} {m buf : Bytes} (h : Holds c m) (hb : buf.length = m.length) :
    ∃ c', recv c buf = .ok (m, c') ∧ Holds c' [] := by
  have hle := h.le
  unfold recv
  by_cases h0 : m.length = 0
  · have e1 := List.length_eq_zero_iff.1 h0
    subst e1
    have e2 := List.length_eq_zero_iff.1 hb
    subst e2
    rw [if_pos (.inr rfl)]
    exact ⟨c, rfl, h⟩
  · rw [if_neg (by rw [h.len]; omega), rd_ok (by rw [h.size]; omega), C.ok_bind, List.drop_zero, hb, h.bytes]
    exact ⟨_, rfl, ⟨h.size, by show c.len - m.length = 0; rw [h.len]; omega, rfl⟩⟩

section
variable {tp : TP} {out : Bytes} {sz : ℕ → ℕ} {n : ℕ}

theorem sendAll_ok (h : ∀ j < n, ∃ off, tpPeerMsg tp out.length (UInt8.ofNat j) = (0, some (off, sz j)) ∧
      ∀ a, off = some a → a + sz j ≤ out.length) (hsz : ∀ j < n, sz j < netSize) : ∀ (m i : ℕ) (nets : List Chan),
    i + m = n → nets.length = n → (∀ j < i, ∀ c, nets[j]? = some c → Holds c (delivered tp out j)) →
    (∀ j, i ≤ j → ∀ c, nets[j]? = some c → Holds c []) →
    ∃ nets', sendAll tp out m i nets = .ok (some nets') ∧ nets'.length = n ∧
      ∀ j c, nets'[j]? = some c → Holds c (delivered tp out j) := by
  intro m
  induction m with
  | zero =>
    intro i nets hi hl h1 h2
    refine ⟨nets, rfl, hl, fun j c hc => h1 j ?_ c hc⟩
    have := (List.getElem?_eq_some_iff.1 hc).1
    omega
  | succ m ih =>
    intro i nets hi hl h1 h2
    have hin : i < n := by omega
    obtain ⟨off, e, ha⟩ := h i hin
    have hlt : i < nets.length := by omega
    have hz := h2 i (le_refl i) nets[i] (List.getElem?_eq_getElem hlt)
    have hs := hsz i hin
    have key : ∃ msg, (match off with
          | none => C.ok []
          | some off => rd out off (sz i)) = .ok msg ∧ msg = delivered tp out i ∧ msg.length ≤ sz i := by
      unfold delivered
      rw [e]
      cases off with
      | none => exact ⟨[], rfl, rfl, Nat.zero_le _⟩
      | some a =>
        refine ⟨_, rd_ok (ha a rfl), rfl, ?_⟩
        rw [List.length_take]
        omega
    obtain ⟨msg, k1, k2, k3⟩ := key
    obtain ⟨c', s1, s2⟩ := send_ok (x := msg) hz (by rw [List.length_nil]; omega)
    rw [List.nil_append, k2] at s2
    obtain ⟨nets', r1, r2⟩ := ih (i + 1) (nets.set i c') (by omega) (by rw [List.length_set, hl]) (by
      intro j hj c hc
      by_cases hji : j = i
      · subst hji
        rw [List.getElem?_set_self hlt] at hc
        cases hc
        exact s2
      · rw [List.getElem?_set_ne (by omega)] at hc
        exact h1 j (by omega) c hc) (by
      intro j hj c hc
      rw [List.getElem?_set_ne (by omega)] at hc
      exact h2 j (by omega) c hc)
    refine ⟨nets', ?_, r2⟩
    unfold sendAll
    rw [e]
    dsimp only
    rw [if_neg (by decide)]
    cases off with
    | none =>
      cases k1
      dsimp only
      rw [C.ok_bind, ld_ok hlt, C.ok_bind, s1, C.ok_bind, st_ok hlt, C.ok_bind, r1]
    | some a =>
      dsimp only at k1 ⊢
      rw [k1, C.ok_bind, ld_ok hlt, C.ok_bind, s1, C.ok_bind, st_ok hlt, C.ok_bind, r1]

end

/-! ## The calls of the peers -/

variable [Signing] [Hashes] [NoiseCrypto] [Mac] (G : Type) [Ristretto G]

theorem callPeers_length {env : ℕ → PEnv} {msg : ℕ → Bytes} : ∀ (ps : List PeerState) (i : ℕ) {rs : List Int}
    {ps' : List PeerState} {w : Bytes}, callPeers G env msg i ps = .ok (rs, ps', w) → ps'.length = ps.length := by
  intro ps
  induction ps with
  | nil => intro i rs ps' w h; unfold callPeers at h; cases h; rfl
  | cons p ps ih =>
    intro i rs ps' w h
    unfold callPeers at h
    dsimp only at h
    rw [C.bind_eq_ok] at h
    obtain ⟨⟨r, p1, o⟩, e1, h⟩ := h
    dsimp only at h
    rw [C.bind_eq_ok] at h
    obtain ⟨⟨rs, ps1, w1⟩, e2, h⟩ := h
    cases h
    rw [List.length_cons, List.length_cons, ih _ e2]

theorem pass_ok {env : ℕ → PEnv} {msg : ℕ → Bytes} : ∀ (ps : List PeerState) (i : ℕ) (chs : List Chan) (net : Chan)
    (k : ℕ) (ps' : List PeerState) (w0 w : Bytes), chs.length = ps.length →
    (∀ j c, chs[j]? = some c → Holds c (msg (i + j))) →
    (∀ j p, ps[j]? = some p → (msg (i + j)).length = peerInputSize p) →
    callPeers G env msg i ps = .ok (List.replicate k 0, ps', w) → Holds net w0 → w0.length + w.length < netSize →
    ∃ chs' net', pass G env i ps chs net = .ok (0, ps', chs', net') ∧ chs'.length = ps.length ∧
      (∀ c ∈ chs', Holds c []) ∧ Holds net' (w0 ++ w) := by
  intro ps
  induction ps with
  | nil =>
    intro i chs net k ps' w0 w hl h1 h2 hc hn hw
    have e := List.length_eq_zero_iff.1 hl
    subst e
    unfold callPeers at hc
    have hc := C.ok.inj hc
    rw [Prod.mk.injEq, Prod.mk.injEq] at hc
    obtain ⟨-, rfl, rfl⟩ := hc
    exact ⟨[], net, rfl, rfl, fun c hc => absurd hc List.not_mem_nil, by rw [List.append_nil]; exact hn⟩
  | cons p ps ih =>
    intro i chs net k ps' w0 w hl h1 h2 hc hn hw
    cases chs with
    | nil => exact absurd hl (by simp)
    | cons c cs =>
      unfold callPeers at hc
      dsimp only at hc
      rw [C.bind_eq_ok] at hc
      obtain ⟨⟨r, p1, o⟩, e1, hc⟩ := hc
      dsimp only at hc
      rw [C.bind_eq_ok] at hc
      obtain ⟨⟨rs, ps1, w1⟩, e2, hc⟩ := hc
      dsimp only at hc
      have hc := C.ok.inj hc
      rw [Prod.mk.injEq, Prod.mk.injEq] at hc
      obtain ⟨hc1, hc2, hc3⟩ := hc
      subst hc2
      subst hc3
      cases k with
      | zero => exact absurd hc1 (by simp)
      | succ k =>
        rw [List.replicate_succ, List.cons.injEq] at hc1
        obtain ⟨rfl, rfl⟩ := hc1
        rw [List.length_append] at hw
        obtain ⟨c', a1, a2⟩ := recv_all (c := c) (m := msg i) (buf := (env i).buf (peerInputSize p))
          (h1 0 c rfl) (by rw [buf_length]; exact (h2 0 p rfl).symm)
        obtain ⟨net1, b1, b2⟩ := send_ok (x := o) hn (by omega)
        obtain ⟨chs', net', d1, d2, d3, d4⟩ := ih (i + 1) cs net1 k ps1 (w0 ++ o) w1
          (by simpa using hl)
          (fun j c hc => by have := h1 (j + 1) c (by simpa using hc); rwa [← Nat.add_assoc, Nat.add_right_comm] at this)
          (fun j p hp => by have := h2 (j + 1) p (by simpa using hp); rwa [← Nat.add_assoc, Nat.add_right_comm] at this)
          e2 b2 (by rw [List.length_append]; omega)
        refine ⟨c' :: chs', net', ?_, by simp [d2], ?_, by rw [← List.append_assoc]; exact d4⟩
        · unfold pass
          dsimp only
          rw [a1, C.ok_bind]
          dsimp only
          rw [e1, C.ok_bind]
          dsimp only
          rw [if_neg (by decide), b1, C.ok_bind, d1, C.ok_bind]
        · intro x hx
          rcases List.mem_cons.1 hx with rfl | hx
          · exact a2
          · exact d3 x hx

/-! ## Rounds -/

/-- The variables of the program agree with the state `s` of the parties. -/
structure Rel (v : Vars) (s : Net) : Prop where
  tp : v.tp = s.tp
  peers : v.peers = s.peers
  net : Holds v.net s.wire
  len : v.nets.length = s.peers.length
  nets : ∀ c ∈ v.nets, Holds c []

section
variable {tpEnv : PEnv} {env : ℕ → PEnv} {v : Vars} {s s' : Net} {n : ℕ}

theorem inner_stop (R : Rel v s) (h : s.wire ≠ []) (k : ℕ) : inner G env (k + 1) v = .ok (0, v) := by
  unfold inner
  rw [if_pos]
  rw [R.net.len]
  exact fun h' => h (List.length_eq_zero_iff.1 h')

theorem inner_done (R : Rel v s) {p : PeerState} (h1 : s.peers[1]? = some p) (h : 11 ≤ p.step) (k : ℕ) :
    inner G env (k + 1) v = .ok (0, v) := by
  unfold inner
  split
  · rfl
  · have hp : peerNotDone p = false := by unfold peerNotDone; simp; omega
    rw [R.peers]
    unfold ld
    rw [h1, C.ok_bind, if_pos hp]

theorem inner_idle (R : Rel v s) (hw0 : s.wire = []) {p : PeerState} (h1 : s.peers[1]? = some p) (h : p.step < 11)
    (hsz : ∀ p ∈ s.peers, peerInputSize p = 0) (hr : Net.idle G env s = .ok s')
    (hres : s'.results = s.results ++ List.replicate n 0) (hw : s'.wire.length < netSize) :
    ∃ v', Rel v' s' ∧ ∀ k, inner G env (k + 1) v = inner G env k v' := by
  unfold Net.idle at hr
  rw [C.bind_eq_ok] at hr
  obtain ⟨⟨rs, ps', w⟩, e, hr⟩ := hr
  dsimp only at hr
  cases hr
  have hrs : rs = List.replicate n 0 := List.append_cancel_left hres
  subst hrs
  dsimp only at hw
  obtain ⟨chs', net', d1, d2, d3, d4⟩ := pass_ok G s.peers 0 v.nets v.net n ps' s.wire w R.len
    (fun j c hc => R.nets c (List.mem_of_getElem? hc))
    (fun j p hp => by rw [hsz p (List.mem_of_getElem? hp)]; rfl) e R.net (by rw [← List.length_append]; exact hw)
  have hl : ps'.length = s.peers.length := callPeers_length G _ _ e
  refine ⟨{ v with peers := ps', nets := chs', net := net' }, ⟨R.tp, rfl, d4, ?_, d3⟩, ?_⟩
  · show chs'.length = ps'.length
    omega
  · intro k
    conv_lhs => unfold inner
    rw [if_neg (by rw [R.net.len, hw0]; decide), R.peers]
    unfold ld
    rw [h1, C.ok_bind, if_neg (by unfold peerNotDone; simp; omega), d1, C.ok_bind]
    dsimp only
    rw [if_neg (by decide)]

theorem loop_round (R : Rel v s) (hp : s.peers.length = n) (hn : s.tp.n.toNat = n) (g : TpDkg.Good s.tp) (h9 : s.tp.step ≤ 9)
    (h7 : s.tp.step ≠ 7) (hpe : ∀ p ∈ s.peers, p.n = s.tp.n ∧ p.t = s.tp.t ∧ p.step = consumer s.tp.step)
    (hin : tpInputSize s.tp = .ok s.wire.length) (hr : Net.round G tpEnv env s = .ok s')
    (hres : s'.results = s.results ++ 0 :: List.replicate n 0) (hw : s'.wire.length < netSize)
    (hsz : ∀ p ∈ s.peers, peerInputSize p < netSize) (h2 : 2 ≤ n) :
    ∃ v', Rel v' s' ∧ TpDkg.Good s'.tp ∧ ∀ k, loop G tpEnv env (k + 1) v =
      (inner G env k v' >>= fun x => if x.1 ≠ 0 then .ok (.returns x.1) else loop G tpEnv env k x.2) := by
  unfold Net.round at hr
  rw [C.bind_eq_ok] at hr
  obtain ⟨⟨r, tp', out⟩, et, hr⟩ := hr
  dsimp only at hr
  rw [C.bind_eq_ok] at hr
  obtain ⟨⟨rs, ps', w⟩, e, hr⟩ := hr
  dsimp only at hr
  cases hr
  dsimp only at hw ⊢
  have hrs := List.append_cancel_left hres
  rw [List.cons.injEq] at hrs
  obtain ⟨rfl, rfl⟩ := hrs
  obtain ⟨hk, -⟩ := keep_tpNext G et
  have hn' : tp'.n.toNat = n := by rw [hk.n, hn]
  have hmsg := fun p (h : p ∈ s.peers) => fun j (hj : j < s.tp.n.toNat) => C32_tp_to_peer G _ _ _ _ _ _ _ _ g h7 et p
    (hpe p h).1 (hpe p h).2.1 (hpe p h).2.2 j hj
  obtain ⟨net1, a1, a2⟩ := recv_all (buf := tpEnv.buf s.wire.length) R.net (by rw [buf_length])
  have hlt : ∀ j, j < n → j < s.peers.length := fun j hj => by omega
  have hdl : ∀ j p, s.peers[j]? = some p → (delivered tp' out j).length = peerInputSize p := by
    intro j p hp'
    obtain ⟨-, -, -, h⟩ := hmsg p (List.mem_of_getElem? hp') j (by have := (List.getElem?_eq_some_iff.1 hp').1; omega)
    exact h
  obtain ⟨nets1, b1, b2, b3⟩ := sendAll_ok (tp := tp') (out := out) (n := n)
    (sz := fun j => ((s.peers[j]?).map peerInputSize).getD 0) (by
      intro j hj
      have hj' := hlt j hj
      obtain ⟨off, c1, c2, -⟩ := hmsg s.peers[j] (List.getElem_mem hj') j (by omega)
      refine ⟨off, ?_, ?_⟩
      · rw [List.getElem?_eq_getElem hj']; exact c1
      · rw [List.getElem?_eq_getElem hj']; exact c2) (by
      intro j hj
      have hj' := hlt j hj
      rw [List.getElem?_eq_getElem hj']
      exact hsz _ (List.getElem_mem hj')) n 0 v.nets (by omega) (by rw [R.len, hp])
    (fun j hj => absurd hj (Nat.not_lt_zero j)) (fun j _ c hc => R.nets c (List.mem_of_getElem? hc))
  obtain ⟨chs', net', d1, d2, d3, d4⟩ := pass_ok G s.peers 0 nets1 net1 n ps' [] w (by rw [b2, hp])
    (fun j c hc => by rw [Nat.zero_add]; exact b3 j c hc)
    (fun j p hp' => by rw [Nat.zero_add]; exact hdl j p hp') e a2 (by rw [List.length_nil]; omega)
  have hl : ps'.length = s.peers.length := callPeers_length G _ _ e
  rw [List.nil_append] at d4
  refine ⟨⟨tp', ps', net', chs'⟩, ⟨rfl, rfl, d4, by show chs'.length = ps'.length; omega, d3⟩, good_next G g et, ?_⟩
  intro k
  conv_lhs => unfold loop
  rw [R.tp, if_neg (by unfold tpNotDone; simp; omega), hin, C.ok_bind, a1, C.ok_bind]
  dsimp only
  rw [et, C.ok_bind]
  dsimp only
  rw [if_neg (by decide), hn', b1, C.ok_bind]
  dsimp only
  have hp1 : 1 < s.peers.length := by omega
  have hinner : inner G env (k + 1) ⟨tp', v.peers, net1, nets1⟩ = inner G env k ⟨tp', ps', net', chs'⟩ := by
    conv_lhs => unfold inner
    dsimp only
    rw [if_neg (by rw [a2.len]; decide), R.peers, ld_ok hp1, C.ok_bind, if_neg (by
      have := (hpe _ (List.getElem_mem hp1)).2.2
      unfold peerNotDone
      rw [this]
      unfold consumer
      simp
      split <;> omega), d1, C.ok_bind]
    dsimp only
    rw [if_neg (by decide)]
  rw [R.peers] at hinner
  rw [R.peers, hinner]

end

/-! ## The whole run -/

variable {S : Setup} {lo : ℕ}

theorem peerInputSize_lt {p : PeerState} (hn : p.n.toNat ≤ 128) (ht : p.t.toNat ≤ 128) : peerInputSize p < netSize := by
  have h6 : msg6Size p.t * p.n.toNat ≤ (111 + 32 * 128) * 128 := Nat.mul_le_mul (by unfold msg6Size; omega) hn
  have h10 : msg10Size p.n ≤ 111 + 128 * (112 + 128) := by
    have : p.n.toNat * msg9Size p.n ≤ 128 * (112 + 128) := Nat.mul_le_mul hn (by unfold msg9Size; omega)
    unfold msg10Size
    omega
  unfold peerInputSize netSize
  dsimp only
  split <;> (try simp only [msg1Size, msg2Size, msg4Size, msg5Size, msg8Size, msg20Size, hdrSize]) <;> omega

theorem inputSize {tp : TP} {item : ℕ} (hn : 0 < tp.n.toNat)
    (h : tpInputSizes tp = .ok (1, List.replicate tp.n.toNat item)) : tpInputSize tp = .ok (item * tp.n.toNat) := by
  unfold tpInputSize
  rw [if_neg (by intro h0; rw [h0] at hn; exact absurd hn (by decide)), h, C.ok_bind]
  dsimp only
  rw [if_pos rfl, ld_ok (by simpa using hn), C.ok_bind, List.getElem_replicate]

/-- One pass of the main loop. -/
theorem round_step {v : Vars} {tp tp' : TP} {cs cs' : ℕ → PeerState} {wire wire' : Bytes} {res : List Int}
    {m st item : ℕ} {b : ℕ → UInt64} (hS : S.Honest lo) (hT : TpAt S lo m b tp) (hst : tp.step = st) (h9 : st ≤ 9) (h7 : st ≠ 7)
    (hps : ∀ i < S.n.toNat, (cs i).n = S.n ∧ (cs i).t = S.t ∧ (cs i).step = consumer st)
    (hitem : tpInputSizes tp = .ok (1, List.replicate tp.n.toNat item)) (hwire : wire.length = S.n.toNat * item)
    (hw' : wire'.length < netSize) (R : Rel v ⟨tp, (List.range S.n.toNat).map cs, wire, res⟩) (g : TpDkg.Good tp)
    (e : Net.round G S.tpEnv S.env ⟨tp, (List.range S.n.toNat).map cs, wire, res⟩ =
      .ok ⟨tp', (List.range S.n.toNat).map cs', wire', res ++ 0 :: List.replicate S.n.toNat 0⟩) :
    ∃ v', Rel v' ⟨tp', (List.range S.n.toNat).map cs', wire', res ++ 0 :: List.replicate S.n.toNat 0⟩ ∧ TpDkg.Good tp' ∧
      ∀ k, loop G S.tpEnv S.env (k + 1) v =
        (inner G S.env k v' >>= fun x => if x.1 ≠ 0 then .ok (.returns x.1) else loop G S.tpEnv S.env k x.2) := by
  obtain ⟨hn3, hn128⟩ := n_lt hS
  have ht := hS.t_lt
  have hmem : ∀ p ∈ (List.range S.n.toNat).map cs, p.n = S.n ∧ p.t = S.t ∧ p.step = consumer st := by
    intro p hp
    obtain ⟨i, hi, rfl⟩ := List.mem_map.1 hp
    exact hps i (List.mem_range.1 hi)
  refine loop_round G (n := S.n.toNat) R (by simp) (by show tp.n.toNat = _; rw [hT.n]) g (by show tp.step ≤ 9; omega)
    (by show tp.step ≠ 7; omega)
    (fun p hp => by
      obtain ⟨a, b, c⟩ := hmem p hp
      exact ⟨by show p.n = tp.n; rw [a, hT.n], by show p.t = tp.t; rw [b, hT.t], by show p.step = consumer tp.step; rw [c, hst]⟩)
    ?_ e rfl hw' (fun p hp => by
      obtain ⟨a, b, -⟩ := hmem p hp
      exact peerInputSize_lt (by rw [a]; exact hn128) (by rw [b]; omega)) (by omega)
  show tpInputSize tp = .ok wire.length
  rw [inputSize (by rw [hT.n]; omega) hitem, hwire, hT.n, Nat.mul_comm]

/-- A pass after which the trusted party has input. -/
theorem round_stop {v' : Vars} {s' : Net} (R : Rel v' s') (h : s'.wire ≠ []) {v : Vars} {tpEnv : PEnv} {env : ℕ → PEnv}
    (hl : ∀ k, loop G tpEnv env (k + 1) v =
        (inner G env k v' >>= fun x => if x.1 ≠ 0 then .ok (.returns x.1) else loop G tpEnv env k x.2)) (k : ℕ) :
    loop G tpEnv env (k + 2) v = loop G tpEnv env (k + 1) v' := by
  rw [hl (k + 1), inner_stop G R h k, C.ok_bind]
  dsimp only
  rw [if_neg (by decide)]

theorem wire_ne {w : Bytes} {k : ℕ} (h : w.length = k) (hk : 0 < k) : w ≠ [] := by
  rintro rfl
  rw [List.length_nil] at h
  omega

/-- The sessions and the device of a peer exist. -/
structure Alive (S : Setup) (c : PeerState) : Prop where
  n : c.n = S.n
  outs : c.outs.length = S.n.toNat
  ins : c.ins.length = S.n.toNat
  dev : ∃ dv, c.dev = .live dv
  outs_live : ∀ j < S.n.toNat, ∃ x, c.outs[j]? = some (.live x)
  ins_live : ∀ j < S.n.toNat, ∃ x, c.ins[j]? = some (.live x)

/-- The main loop in a run in which all parties follow the protocol. -/
theorem loop_honest (hS : S.Honest lo) {tp0 : TP} {cs0 : ℕ → PeerState} {v0 : Vars} {res : List Int}
    (M0 : Between S lo 0 (clk S cs0) (fun _ _ => True) 0 0 tp0 cs0)
    (hlt : ∀ i < S.n.toNat, (cs0 i).ltSk = Signing.skOf (S.lt i)) (g0 : TpDkg.Good tp0)
    (R0 : Rel v0 ⟨tp0, (List.range S.n.toNat).map cs0, [], res⟩) :
    ∃ v cs, (∀ k, loop G S.tpEnv S.env (k + 10) v0 = .ok (.over v)) ∧ v.tp.cheaterLen = 0 ∧
      v.peers = (List.range S.n.toNat).map cs ∧
      ∀ i < S.n.toNat, (cs i).share = finalShare S i ∧ Alive S (cs i) := by
  obtain ⟨hn3, hn128⟩ := n_lt hS
  have ht := hS.t_lt
  have bnd : ∀ sz, sz ≤ 131071 → S.n.toNat * sz < netSize := fun sz hsz => by
    have := Nat.mul_le_mul hn128 hsz
    unfold netSize
    omega
  have pos : ∀ sz, 0 < sz → 0 < S.n.toNat * sz := fun sz hsz => Nat.mul_pos (by omega) hsz
  have same : ∀ {m st ps tp cs b P}, Between S lo m b P st ps tp cs → ps = consumer st →
      ∀ i < S.n.toNat, (cs i).n = S.n ∧ (cs i).t = S.t ∧ (cs i).step = consumer st := by
    intro m st ps tp cs b P M h i hi
    obtain ⟨K, A, -⟩ := M.pAt i hi
    exact ⟨A.n, A.t, by rw [M.pstep i hi, h]⟩
  -- round 0
  obtain ⟨tp1, cs1, ts1, e1, M1, T1⟩ := round0 G (res := res) hS M0 (fun _ _ => UInt64.le_refl _) hlt
  have l1 : (cat S.n.toNat fun j => msg2 S j (ts1 j) ++ (Signing.sign (Signing.skOf (S.lt j)) (msg2 S j (ts1 j))).toList).length =
      S.n.toNat * 239 := cat_length fun j _ => by rw [List.length_append, msg2_length, Vector.length_toList]
  obtain ⟨v1, R1, g1, p1⟩ := round_step G (item := 0) hS M0.tpAt M0.step (by omega) (by omega) (same M0 rfl)
    (by unfold tpInputSizes; rw [M0.step]; rfl) (by simp) (by rw [l1]; exact bnd _ (by omega)) R0 g0 e1
  have q1 := round_stop G R1 (wire_ne l1 (pos _ (by omega))) p1
  -- round 1
  obtain ⟨tp2, cs2, ts2, e2, M2, T2⟩ := round1 G hS M1 T1
  have l2 : (cat S.n.toNat fun i => cat S.n.toNat fun j => pmsg S i 4 (idx j) (ts2 i j) (link S i j).m1).length =
      S.n.toNat * (S.n.toNat * 159) := cat_length fun i _ => cat_length fun j _ => by rw [pmsg_length, (link_of S i j).l1]
  obtain ⟨v2, R2, g2, p2⟩ := round_step G (item := 239) hS M1.tpAt M1.step (by omega) (by omega) (same M1 rfl)
    (by unfold tpInputSizes; rw [M1.step]; rfl) l1 (by rw [l2]; exact bnd _ (by omega)) R1 g1 e2
  have q2 := round_stop G R2 (wire_ne l2 (pos _ (pos _ (by omega)))) p2
  -- round 2
  obtain ⟨tp3, cs3, ts3, e3, M3, T3⟩ := round2 G hS M2 T2
  have l3 : (cat S.n.toNat fun i => cat S.n.toNat fun j => pmsg S i 5 (idx j) (ts3 i j) (link S j i).m2).length =
      S.n.toNat * (S.n.toNat * 159) := cat_length fun i _ => cat_length fun j _ => by rw [pmsg_length, (link_of S j i).l2]
  obtain ⟨v3, R3, g3, p3⟩ := round_step G (item := S.n.toNat * 159) hS M2.tpAt M2.step (by omega) (by omega) (same M2 rfl)
    (by unfold tpInputSizes; rw [M2.step, M2.tpAt.n, Nat.mul_comm S.n.toNat]; rfl) l2 (by rw [l3]; exact bnd _ (by omega)) R2 g2 e3
  have q3 := round_stop G R3 (wire_ne l3 (pos _ (pos _ (by omega)))) p3
  -- round 3
  obtain ⟨tp4, cs4, ts4, e4, M4, T4⟩ := round3 G hS M3 T3
  have l4 : (cat S.n.toNat fun i => pmsg S i 6 0xff (ts4 i) (body6 G S i)).length =
      S.n.toNat * (111 + 32 * S.t.toNat) := cat_length fun i _ => by rw [pmsg_length, body6_length]
  obtain ⟨v4, R4, g4, p4⟩ := round_step G (item := S.n.toNat * 159) hS M3.tpAt M3.step (by omega) (by omega) (same M3 rfl)
    (by unfold tpInputSizes; rw [M3.step, M3.tpAt.n, Nat.mul_comm S.n.toNat]; rfl) l3 (by rw [l4]; exact bnd _ (by omega)) R3 g3 e4
  have q4 := round_stop G R4 (wire_ne l4 (pos _ (by omega))) p4
  -- round 4
  obtain ⟨tp5, cs5, ts5, e5, M5, T5⟩ := round4 G hS M4 T4
  have l5 : (cat S.n.toNat fun i => cat S.n.toNat fun j => pmsg S i 8 (idx j) (ts5 i j) (body8 S i j)).length =
      S.n.toNat * (S.n.toNat * 256) := cat_length fun i _ => cat_length fun j _ => by rw [pmsg_length, body8_length]
  obtain ⟨v5, R5, g5, p5⟩ := round_step G (item := 111 + 32 * S.t.toNat) hS M4.tpAt M4.step (by omega) (by omega) (same M4 rfl)
    (by unfold tpInputSizes; rw [M4.step, M4.tpAt.t]; rfl) l4 (by rw [l5]; exact bnd _ (by omega)) R4 g4 e5
  have q5 := round_stop G R5 (wire_ne l5 (pos _ (pos _ (by omega)))) p5
  -- round 5
  obtain ⟨tp6, cs6, ts6, e6, M6, T6⟩ := round5 G hS M5 T5
  have hb9 : (body9 S).length = S.n.toNat + 1 := by simp [body9]
  have l6 : (cat S.n.toNat fun i => pmsg S i 9 0xff (ts6 i) (body9 S)).length =
      S.n.toNat * (111 + (S.n.toNat + 1)) := cat_length fun i _ => by rw [pmsg_length, hb9]
  obtain ⟨v6, R6, g6, p6⟩ := round_step G (item := S.n.toNat * 256) hS M5.tpAt M5.step (by omega) (by omega) (same M5 rfl)
    (by unfold tpInputSizes; rw [M5.step, M5.tpAt.n]; rfl) l5 (by rw [l6]; exact bnd _ (by omega)) R5 g5 e6
  have q6 := round_stop G R6 (wire_ne l6 (pos _ (by omega))) p6
  -- round 6, after which the peers are called without a message
  obtain ⟨tp7, cs7, e7, M7, T7⟩ := round6 G hS M6 T6
  obtain ⟨v7, R7, g7, p7⟩ := round_step G (item := 111 + (S.n.toNat + 1)) hS M6.tpAt M6.step (by omega) (by omega) (same M6 rfl)
    (by unfold tpInputSizes; rw [M6.step, M6.tpAt.n]; rfl) l6 (by simpa using bnd 0 (by omega)) R6 g6 e7
  obtain ⟨cs8, ts8, e8, M8, T8⟩ := idle_ok G hS M7 T7
  have l8 : (cat S.n.toNat fun i => pmsg S i 20 0 (ts8 i) (Hashes.generichash32 tp7.transcript).toList).length =
      S.n.toNat * 143 := cat_length fun i _ => by rw [pmsg_length, Vector.length_toList]
  obtain ⟨v8, R8, p8⟩ := inner_idle G (n := S.n.toNat) (p := cs7 1) R7 rfl
    (by
      show ((List.range S.n.toNat).map cs7)[1]? = _
      rw [List.getElem?_map, List.getElem?_range (by omega)]
      rfl)
    (by rw [M7.pstep 1 (by omega)]; omega)
    (by
      intro p hp
      obtain ⟨i, hi, rfl⟩ := List.mem_map.1 hp
      unfold peerInputSize
      rw [M7.pstep i (List.mem_range.1 hi)]
      rfl)
    e8 rfl (by
      show (cat S.n.toNat fun i => pmsg S i 20 0 (ts8 i) (Hashes.generichash32 tp7.transcript).toList).length < _
      rw [l8]; exact bnd _ (by omega))
  have q7 : ∀ k, loop G S.tpEnv S.env (k + 3) v6 = loop G S.tpEnv S.env (k + 2) v8 := by
    intro k
    rw [p7 (k + 2), p8 (k + 1), inner_stop G R8 (wire_ne l8 (pos _ (by omega))) k, C.ok_bind]
    dsimp only
    rw [if_neg (by decide)]
  -- round 7
  obtain ⟨tp9, cs9, ts9, e9, A9, s9, T9, F9⟩ := round7 G hS M8 T8
  have l9 : (cat S.n.toNat fun i => pmsg S i 22 0 (ts9 i) [79, 75]).length = S.n.toNat * 113 :=
    cat_length fun i _ => by rw [pmsg_length]; rfl
  obtain ⟨v9, R9, g9, p9⟩ := round_step G (item := 143) hS M8.tpAt M8.step (by omega) (by omega) (same M8 rfl)
    (by unfold tpInputSizes; rw [M8.step]; rfl) l8 (by rw [l9]; exact bnd _ (by omega)) R8 g7 e9
  have q9 := round_stop G R9 (wire_ne l9 (pos _ (by omega))) p9
  -- round 8
  obtain ⟨tp10, cs10, e10, A10, s10, F10⟩ := round8 G hS A9 s9 T9 (fun i hi => (F9 i hi).1)
  obtain ⟨v10, R10, g10, p10⟩ := round_step G (item := 113) hS A9 s9 (by omega) (by omega)
    (fun i hi => by
      obtain ⟨h1, -, K, btp, b', A, -⟩ := F9 i hi
      exact ⟨A.n, A.t, h1⟩)
    (by unfold tpInputSizes; rw [s9]; rfl) l9 (by simpa using bnd 0 (by omega)) R9 g9 e10
  have q10 : ∀ k, loop G S.tpEnv S.env (k + 2) v9 = .ok (.over v10) := by
    intro k
    rw [p10 (k + 1), inner_done G (p := cs10 1) R10 (by
      show ((List.range S.n.toNat).map cs10)[1]? = _
      rw [List.getElem?_map, List.getElem?_range (by omega)]
      rfl) (by rw [F10 1 (by omega)]) k, C.ok_bind]
    dsimp only
    rw [if_neg (by decide)]
    unfold loop
    rw [if_pos (by
      have : v10.tp.step = 10 := by rw [R10.tp]; exact s10
      unfold tpNotDone
      rw [this]
      rfl)]
  refine ⟨v10, cs10, ?_, by rw [R10.tp]; exact A10.cheaterLen, R10.peers, ?_⟩
  · intro k
    rw [q1 (k + 8), q2 (k + 7), q3 (k + 6), q4 (k + 5), q5 (k + 4), q6 (k + 3), q7 (k + 1), q9 (k + 1), q10 k]
  · intro i hi
    obtain ⟨-, h2, K, btp, b', A, hK⟩ := F9 i hi
    rw [F10 i hi]
    obtain ⟨dv, hdv, -⟩ := A.dev _ hK.dev
    exact ⟨h2, A.n, A.outs_len, A.ins_len, ⟨dv, hdv⟩, fun j hj => ⟨_, A.outs j hj _ (hK.outs j hj)⟩,
      fun j hj => ⟨_, A.ins j hj _ (hK.ins j hj)⟩⟩

/-! ## The end -/

theorem peerFree_ok {c : PeerState} (A : Alive S c) : ∃ c', peerFree c = .ok c' := by
  have use : ∀ {l : List (Ptr Noise.Session)}, l.length = S.n.toNat →
      (∀ j < S.n.toNat, ∃ x, l[j]? = some (.live x)) → ∀ p ∈ l.drop 0, p.Usable := by
    intro l hl h p hp
    rw [List.drop_zero] at hp
    obtain ⟨j, hj, rfl⟩ := List.getElem_of_mem hp
    obtain ⟨x, hx⟩ := h j (by omega)
    rw [List.getElem?_eq_getElem hj] at hx
    rw [Option.some.inj hx]
    exact ⟨by simp, by simp⟩
  obtain ⟨⟨a, b⟩, hy⟩ := freeLoop_safe c.n.toNat 0 c.ins c.outs (by rw [A.n, A.ins]; omega) (by rw [A.n, A.outs]; omega)
    (use A.ins A.ins_live) (use A.outs A.outs_live)
  obtain ⟨dv, hd⟩ := A.dev
  unfold peerFree
  rw [hy, C.ok_bind, hd]
  exact ⟨_, rfl⟩

theorem freeAll_ok : ∀ (ps : List PeerState), (∀ p ∈ ps, Alive S p) → ∃ ps', freeAll ps = .ok ps'
  | [], _ => ⟨[], rfl⟩
  | p :: ps, h => by
    obtain ⟨p', h1⟩ := peerFree_ok (h p List.mem_cons_self)
    obtain ⟨ps', h2⟩ := freeAll_ok ps fun q hq => h q (List.mem_cons_of_mem _ hq)
    unfold freeAll
    rw [h1, C.ok_bind, h2, C.ok_bind]
    exact ⟨_, rfl⟩

/-! ## The start -/

theorem startAll_ok {m : Bytes} {c1 : ℕ → PeerState} : ∀ (k i : ℕ),
    (∀ j, i ≤ j → j < i + k →
      startPeer (S.peer0 j) ((S.env j).clock (S.peer0 j).ticks) S.eps (S.env j).log (Signing.skOf (S.lt j)) m = .ok (0, c1 j)) →
    startAll S m k i = .ok (0, (List.range' i k).map c1)
  | 0, _, _ => rfl
  | k + 1, i, h => by
    unfold startAll
    dsimp only
    rw [h i (le_refl i) (by omega), C.ok_bind]
    dsimp only
    rw [if_neg (by decide), startAll_ok k (i + 1) fun j a b => h j (by omega) (by omega), C.ok_bind]
    rfl

theorem setAll_ok {c1 c : ℕ → PeerState} : ∀ (k i : ℕ),
    (∀ j, i ≤ j → j < i + k →
      peerSetBufs (c1 j) (S.peer0 j).sigPks (S.peer0 j).noisePks (S.peer0 j).outs (S.peer0 j).ins (S.peer0 j).shares
        (S.peer0 j).xshares (S.peer0 j).commitments (S.peer0 j).complaints (S.peer0 j).mine (S.peer0 j).lastTs = .ok (c j)) →
    setAll S i ((List.range' i k).map c1) = .ok ((List.range' i k).map c)
  | 0, _, _ => rfl
  | k + 1, i, h => by
    rw [List.range'_succ, List.map_cons, List.map_cons]
    unfold setAll
    dsimp only
    rw [h i (le_refl i) (by omega), C.ok_bind, setAll_ok k (i + 1) fun j a b => h j (by omega) (by omega), C.ok_bind]

/-- The start of all parties and the main loop. -/
theorem main_eq {I : Input} (hS : I.setup.Honest lo) :
    ∃ v cs, v.tp.cheaterLen = 0 ∧ v.peers = (List.range I.n.toNat).map cs ∧
      (∀ i < I.n.toNat, (cs i).share = finalShare I.setup i ∧ Alive I.setup (cs i)) ∧
      ∀ k, main G (k + 10) I = finish G I.junk I.scratch I.rand I.n I.t v := by
  obtain ⟨hn3, hn128⟩ := n_lt hS
  have hn3' : 3 ≤ I.n.toNat := hn3
  have ht : 2 ≤ I.t.toNat := hS.t_ge
  obtain ⟨tp, m, h1, tp', h2, h3, h4, h5, h6⟩ := startTp_honest hS
  have hp := fun i hi => startPeer_honest (btp := I.setup.tpEnv.clock tp'.ticks) hS (i := i) hi h1
    (tp_mono hS (by rw [h4]; omega))
  haveI : Nonempty PeerState := ⟨I.setup.peer0 0⟩
  choose! c1 cs0 hc using hp
  have M0 : Between I.setup lo 0 (clk I.setup cs0) (fun _ _ => True) 0 0 tp' cs0 :=
    ⟨h6 _ fun j hj => hS.later j hj _, fun i hi => ⟨_, (hc i hi).2.2.2.2.2 _, trivial⟩, h5,
      fun i hi => (hc i hi).2.2.1, fun i hi => (hc i hi).2.2.2.1.trans h3.symm⟩
  obtain ⟨g0, -, -⟩ := good_start h1 hS.tp_commitments hS.tp_complaints hS.tp_encShares
    (by show (List.replicate (I.t.toNat * I.t.toNat - 1) _).length = _; rw [List.length_replicate]; rfl)
    hS.tp_sigPks (by simp [Setup.ltPks]) hS.tp_lastTs h2
  obtain ⟨v, cs, e, hv, hv', hcs⟩ := loop_honest G (res := []) hS M0 (fun i hi => (hc i hi).2.2.2.2.1) g0
    (v0 := ⟨tp', (List.range I.n.toNat).map cs0, ⟨(I.bufs 0).toList, 0⟩,
      (List.range I.n.toNat).map fun i => ⟨(I.bufs (i + 1)).toList, 0⟩⟩)
    ⟨rfl, rfl, ⟨Vector.length_toList, rfl, rfl⟩, by simp; rfl, by
      intro c hc
      obtain ⟨i, -, rfl⟩ := List.mem_map.1 hc
      exact ⟨Vector.length_toList, rfl, rfl⟩⟩
  refine ⟨v, cs, hv, hv', hcs, fun k => ?_⟩
  have hsq : 4 ≤ I.t.toNat * I.t.toNat := Nat.mul_le_mul ht ht
  unfold main
  dsimp only
  rw [if_neg (by intro h0; rw [h0] at hn3'; exact absurd hn3' (by decide)), h1, C.ok_bind]
  dsimp only
  rw [if_neg (by decide), if_neg (by omega), h2, C.ok_bind,
    startAll_ok (c1 := c1) I.setup.n.toNat 0 (fun j _ hj => (hc j (by omega)).1), C.ok_bind]
  dsimp only
  rw [if_neg (by decide), setAll_ok (c := cs0) I.setup.n.toNat 0 (fun j _ hj => (hc j (by omega)).2.1), C.ok_bind,
    ← List.range_eq_range']
  have e' := e k
  show (loop G I.setup.tpEnv I.setup.env (k + 10) ⟨tp', (List.range I.n.toNat).map cs0, ⟨(I.bufs 0).toList, 0⟩,
      (List.range I.n.toNat).map fun i => ⟨(I.bufs (i + 1)).toList, 0⟩⟩ >>= _) = _
  rw [e', C.ok_bind]

end Verif.TpDkg.Driver
