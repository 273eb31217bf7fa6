import Verif.Proofs.Driver

/-!
# The calls of a run in which all parties follow the protocol, for any driver

`Runs` lists the rounds of such a run with what a driver has to know about them.
-/

set_option linter.unusedSectionVars false

namespace Verif.TpDkg

open Wire Spec.Wire Honest Props

variable [Signing] [Hashes] [NoiseCrypto] [Mac] (G : Type) [Ristretto G]

/-- A round without error. -/
structure RoundOk (tpEnv : PEnv) (env : ℕ → PEnv) (n : ℕ) (s s' : Net) : Prop where
  len : s.peers.length = n
  tpn : s.tp.n.toNat = n
  good : TpDkg.Good s.tp
  le9 : s.tp.step ≤ 9
  ne7 : s.tp.step ≠ 7
  peers : ∀ p ∈ s.peers, p.n = s.tp.n ∧ p.t = s.tp.t ∧ p.step = consumer s.tp.step
  sizes : ∃ l, tpInputSizes s.tp = .ok l
  size : tpInputSize s.tp = .ok s.wire.length
  round : Net.round G tpEnv env s = .ok s'
  res : s'.results = s.results ++ 0 :: List.replicate n 0

/-- Calls of all peers without message and without error. -/
structure IdleOk (env : ℕ → PEnv) (n : ℕ) (s s' : Net) : Prop where
  len : s.peers.length = n
  wire : s.wire = []
  step : ∀ p ∈ s.peers, p.step < 11
  size : ∀ p ∈ s.peers, peerInputSize p = 0
  idle : Net.idle G env s = .ok s'
  res : s'.results = s.results ++ List.replicate n 0

/-- A sequence of `k` rounds that ends when all are done. -/
inductive Runs (tpEnv : PEnv) (env : ℕ → PEnv) (n : ℕ) : ℕ → Net → Net → Prop
  | last {s s' : Net} (h : RoundOk G tpEnv env n s s') (hw : s'.wire = []) (ht : s'.tp.step = 10)
      (hp : ∀ p ∈ s'.peers, 11 ≤ p.step) : Runs tpEnv env n 1 s s'
  | round {k : ℕ} {s s' s'' : Net} (h : RoundOk G tpEnv env n s s') (hw : s'.wire ≠ []) (r : Runs tpEnv env n k s' s'') :
      Runs tpEnv env n (k + 1) s s''
  | idle {k : ℕ} {s s1 s2 s'' : Net} (h : RoundOk G tpEnv env n s s1) (i : IdleOk G env n s1 s2) (hw : s2.wire ≠ [])
      (r : Runs tpEnv env n k s2 s'') : Runs tpEnv env n (k + 1) s s''

variable {G}
variable {S : Setup} {lo : ℕ}

/-- One round of the run. -/
theorem roundOk {tp tp' : TP} {cs cs' : ℕ → PeerState} {wire wire' : Bytes} {res : List Int}
    {m st item : ℕ} {b : ℕ → UInt64} (hS : S.Honest lo) (hT : TpAt S lo m b tp) (hst : tp.step = st) (h9 : st ≤ 9) (h7 : st ≠ 7)
    (hps : ∀ i < S.n.toNat, (cs i).n = S.n ∧ (cs i).t = S.t ∧ (cs i).step = consumer st)
    (hitem : tpInputSizes tp = .ok (1, List.replicate tp.n.toNat item)) (hwire : wire.length = S.n.toNat * item)
    (g : TpDkg.Good tp)
    (e : Net.round G S.tpEnv S.env ⟨tp, (List.range S.n.toNat).map cs, wire, res⟩ =
      .ok ⟨tp', (List.range S.n.toNat).map cs', wire', res ++ 0 :: List.replicate S.n.toNat 0⟩) :
    RoundOk G S.tpEnv S.env S.n.toNat ⟨tp, (List.range S.n.toNat).map cs, wire, res⟩
      ⟨tp', (List.range S.n.toNat).map cs', wire', res ++ 0 :: List.replicate S.n.toNat 0⟩ ∧ TpDkg.Good tp' := by
  obtain ⟨hn3, hn128⟩ := n_lt hS
  refine ⟨{
    len := by simp
    tpn := by show tp.n.toNat = _; rw [hT.n]
    good := g
    le9 := by show tp.step ≤ 9; omega
    ne7 := by show tp.step ≠ 7; omega
    peers := ?_
    sizes := ⟨_, hitem⟩
    size := ?_
    round := e
    res := rfl }, ?_⟩
  · intro p hp
    obtain ⟨i, hi, rfl⟩ := List.mem_map.1 hp
    obtain ⟨a, b, c⟩ := hps i (List.mem_range.1 hi)
    exact ⟨by show (cs i).n = tp.n; rw [a, hT.n], by show (cs i).t = tp.t; rw [b, hT.t],
      by show (cs i).step = consumer tp.step; rw [c, hst]⟩
  · show tpInputSize tp = .ok wire.length
    rw [Driver.inputSize (by rw [hT.n]; omega) hitem, hwire, hT.n, Nat.mul_comm]
  · unfold Net.round at e
    rw [C.bind_eq_ok] at e
    obtain ⟨⟨r, tp1, out⟩, et, e⟩ := e
    dsimp only at e
    rw [C.bind_eq_ok] at e
    obtain ⟨⟨rs, ps', w⟩, e2, e⟩ := e
    have e := C.ok.inj e
    have htp : tp1 = tp' := congrArg Net.tp e
    subst htp
    exact good_next G g et

variable (G)

/-- All rounds of a run in which all parties follow the protocol. -/
theorem runs_honest (hS : S.Honest lo) {tp0 : TP} {cs0 : ℕ → PeerState} {res : List Int}
    (M0 : Between S lo 0 (clk S cs0) (fun _ _ => True) 0 0 tp0 cs0)
    (hlt : ∀ i < S.n.toNat, (cs0 i).ltSk = Signing.skOf (S.lt i)) (g0 : TpDkg.Good tp0) :
    ∃ s cs, Runs G S.tpEnv S.env S.n.toNat 9 ⟨tp0, (List.range S.n.toNat).map cs0, [], res⟩ s ∧ s.tp.cheaterLen = 0 ∧
      s.peers = (List.range S.n.toNat).map cs ∧
      ∀ i < S.n.toNat, (cs i).share = finalShare S i ∧ Driver.Alive S (cs i) := by
  obtain ⟨hn3, hn128⟩ := n_lt hS
  have ht := hS.t_lt
  have pos : ∀ sz, 0 < sz → 0 < S.n.toNat * sz := fun sz hsz => Nat.mul_pos (by omega) hsz
  have same : ∀ {m st ps tp cs b P}, Between S lo m b P st ps tp cs → ps = consumer st →
      ∀ i < S.n.toNat, (cs i).n = S.n ∧ (cs i).t = S.t ∧ (cs i).step = consumer st := by
    intro m st ps tp cs b P M h i hi
    obtain ⟨K, A, -⟩ := M.pAt i hi
    exact ⟨A.n, A.t, by rw [M.pstep i hi, h]⟩
  -- round 0
  obtain ⟨tp1, cs1, ts1, e1, M1, T1⟩ := round0 G (res := res) hS M0 (fun _ _ => UInt64.le_refl _) hlt
  have l1 : (cat S.n.toNat fun j => msg2 S j (ts1 j) ++ (Signing.sign (Signing.skOf (S.lt j)) (msg2 S j (ts1 j))).toList).length =
      S.n.toNat * 239 := cat_length fun j _ => by rw [List.length_append, msg2_length, Vector.length_toList]
  obtain ⟨R1, g1⟩ := roundOk (item := 0) hS M0.tpAt M0.step (by omega) (by omega) (same M0 rfl)
    (by unfold tpInputSizes; rw [M0.step]; rfl) (by simp) g0 e1
  -- round 1
  obtain ⟨tp2, cs2, ts2, e2, M2, T2⟩ := round1 G hS M1 T1
  have l2 : (cat S.n.toNat fun i => cat S.n.toNat fun j => pmsg S i 4 (idx j) (ts2 i j) (link S i j).m1).length =
      S.n.toNat * (S.n.toNat * 159) := cat_length fun i _ => cat_length fun j _ => by rw [pmsg_length, (link_of S i j).l1]
  obtain ⟨R2, g2⟩ := roundOk (item := 239) hS M1.tpAt M1.step (by omega) (by omega) (same M1 rfl)
    (by unfold tpInputSizes; rw [M1.step]; rfl) l1 g1 e2
  -- round 2
  obtain ⟨tp3, cs3, ts3, e3, M3, T3⟩ := round2 G hS M2 T2
  have l3 : (cat S.n.toNat fun i => cat S.n.toNat fun j => pmsg S i 5 (idx j) (ts3 i j) (link S j i).m2).length =
      S.n.toNat * (S.n.toNat * 159) := cat_length fun i _ => cat_length fun j _ => by rw [pmsg_length, (link_of S j i).l2]
  obtain ⟨R3, g3⟩ := roundOk (item := S.n.toNat * 159) hS M2.tpAt M2.step (by omega) (by omega) (same M2 rfl)
    (by unfold tpInputSizes; rw [M2.step, M2.tpAt.n, Nat.mul_comm S.n.toNat]; rfl) l2 g2 e3
  -- round 3
  obtain ⟨tp4, cs4, ts4, e4, M4, T4⟩ := round3 G hS M3 T3
  have l4 : (cat S.n.toNat fun i => pmsg S i 6 0xff (ts4 i) (body6 G S i)).length =
      S.n.toNat * (111 + 32 * S.t.toNat) := cat_length fun i _ => by rw [pmsg_length, body6_length]
  obtain ⟨R4, g4⟩ := roundOk (item := S.n.toNat * 159) hS M3.tpAt M3.step (by omega) (by omega) (same M3 rfl)
    (by unfold tpInputSizes; rw [M3.step, M3.tpAt.n, Nat.mul_comm S.n.toNat]; rfl) l3 g3 e4
  -- round 4
  obtain ⟨tp5, cs5, ts5, e5, M5, T5⟩ := round4 G hS M4 T4
  have l5 : (cat S.n.toNat fun i => cat S.n.toNat fun j => pmsg S i 8 (idx j) (ts5 i j) (body8 S i j)).length =
      S.n.toNat * (S.n.toNat * 256) := cat_length fun i _ => cat_length fun j _ => by rw [pmsg_length, body8_length]
  obtain ⟨R5, g5⟩ := roundOk (item := 111 + 32 * S.t.toNat) hS M4.tpAt M4.step (by omega) (by omega) (same M4 rfl)
    (by unfold tpInputSizes; rw [M4.step, M4.tpAt.t]; rfl) l4 g4 e5
  -- round 5
  obtain ⟨tp6, cs6, ts6, e6, M6, T6⟩ := round5 G hS M5 T5
  have hb9 : (body9 S).length = S.n.toNat + 1 := by simp [body9]
  have l6 : (cat S.n.toNat fun i => pmsg S i 9 0xff (ts6 i) (body9 S)).length =
      S.n.toNat * (111 + (S.n.toNat + 1)) := cat_length fun i _ => by rw [pmsg_length, hb9]
  obtain ⟨R6, g6⟩ := roundOk (item := S.n.toNat * 256) hS M5.tpAt M5.step (by omega) (by omega) (same M5 rfl)
    (by unfold tpInputSizes; rw [M5.step, M5.tpAt.n]; rfl) l5 g5 e6
  -- round 6, after which the peers are called without a message
  obtain ⟨tp7, cs7, e7, M7, T7⟩ := round6 G hS M6 T6
  obtain ⟨R7, g7⟩ := roundOk (item := 111 + (S.n.toNat + 1)) hS M6.tpAt M6.step (by omega) (by omega) (same M6 rfl)
    (by unfold tpInputSizes; rw [M6.step, M6.tpAt.n]; rfl) l6 g6 e7
  obtain ⟨cs8, ts8, e8, M8, T8⟩ := idle_ok G hS M7 T7
  have l8 : (cat S.n.toNat fun i => pmsg S i 20 0 (ts8 i) (Hashes.generichash32 tp7.transcript).toList).length =
      S.n.toNat * 143 := cat_length fun i _ => by rw [pmsg_length, Vector.length_toList]
  -- round 7
  obtain ⟨tp9, cs9, ts9, e9, A9, s9, T9, F9⟩ := round7 G hS M8 T8
  have l9 : (cat S.n.toNat fun i => pmsg S i 22 0 (ts9 i) [79, 75]).length = S.n.toNat * 113 :=
    cat_length fun i _ => by rw [pmsg_length]; rfl
  obtain ⟨R9, g9⟩ := roundOk (item := 143) hS M8.tpAt M8.step (by omega) (by omega) (same M8 rfl)
    (by unfold tpInputSizes; rw [M8.step]; rfl) l8 g7 e9
  -- round 8
  obtain ⟨tp10, cs10, e10, A10, s10, F10⟩ := round8 G hS A9 s9 T9 (fun i hi => (F9 i hi).1)
  obtain ⟨R10, g10⟩ := roundOk (item := 113) hS A9 s9 (by omega) (by omega)
    (fun i hi => by
      obtain ⟨h1, -, K, btp, b', A, -⟩ := F9 i hi
      exact ⟨A.n, A.t, h1⟩)
    (by unfold tpInputSizes; rw [s9]; rfl) l9 g9 e10
  refine ⟨_, cs10, .round R1 (Driver.wire_ne l1 (pos _ (by omega))) <| .round R2 (Driver.wire_ne l2 (pos _ (pos _ (by omega)))) <|
    .round R3 (Driver.wire_ne l3 (pos _ (pos _ (by omega)))) <| .round R4 (Driver.wire_ne l4 (pos _ (by omega))) <|
    .round R5 (Driver.wire_ne l5 (pos _ (pos _ (by omega)))) <| .round R6 (Driver.wire_ne l6 (pos _ (by omega))) <|
    .idle R7 ⟨by simp, rfl, ?_, ?_, e8, rfl⟩ (Driver.wire_ne l8 (pos _ (by omega))) <|
    .round R9 (Driver.wire_ne l9 (pos _ (by omega))) <| .last R10 rfl s10 ?_, A10.cheaterLen, rfl, ?_⟩
  · intro p hp
    obtain ⟨i, hi, rfl⟩ := List.mem_map.1 hp
    rw [M7.pstep i (List.mem_range.1 hi)]
    omega
  · intro p hp
    obtain ⟨i, hi, rfl⟩ := List.mem_map.1 hp
    unfold peerInputSize
    rw [M7.pstep i (List.mem_range.1 hi)]
    rfl
  · intro p hp
    obtain ⟨i, hi, rfl⟩ := List.mem_map.1 hp
    rw [F10 i (List.mem_range.1 hi)]
  · intro i hi
    obtain ⟨-, h2, K, btp, b', A, hK⟩ := F9 i hi
    rw [F10 i hi]
    obtain ⟨dv, hdv, -⟩ := A.dev _ hK.dev
    exact ⟨h2, A.n, A.outs_len, A.ins_len, ⟨dv, hdv⟩, fun j hj => ⟨_, A.outs j hj _ (hK.outs j hj)⟩,
      fun j hj => ⟨_, A.ins j hj _ (hK.ins j hj)⟩⟩

end Verif.TpDkg
