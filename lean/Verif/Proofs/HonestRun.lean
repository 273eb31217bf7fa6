import Verif.Proofs.HonestPeer2

/-!
# Rounds in a run in which all parties follow the protocol
-/

set_option linter.unusedSectionVars false

namespace Verif.TpDkg.Honest

open H Wire Spec.Wire

variable [Signing] [Hashes] [NoiseCrypto] [Mac] (G : Type) [Ristretto G]

variable {S : Setup} {lo : ℕ}

/-! ## Calls of all peers -/

theorem callPeers_range {env : ℕ → PEnv} {msg : ℕ → Bytes} {c0 c : ℕ → PeerState} {o : ℕ → Bytes} : ∀ (k i : ℕ),
    (∀ j, i ≤ j → j < i + k → peerNext G (env j).clock (env j).log (env j).mlock (env j).scratch (env j).rnd (c0 j) (msg j)
      ((env j).buf (peerOutputSize (c0 j))) = .ok (0, c j, o j)) →
    callPeers G env msg i ((List.range' i k).map c0) =
      .ok (List.replicate k 0, (List.range' i k).map c, ((List.range' i k).map o).flatten)
  | 0, _, _ => rfl
  | k + 1, i, h => by
    rw [List.range'_succ, List.map_cons]
    unfold callPeers
    dsimp only
    rw [h i (le_refl i) (by omega), C.ok_bind]
    dsimp only
    rw [callPeers_range k (i + 1) fun j h1 h2 => h j (by omega) (by omega), C.ok_bind]
    rfl

theorem peers_ok {msg : ℕ → Bytes} {c0 : ℕ → PeerState} {Q : ℕ → PRun → Prop} (hn : 0 < S.n.toNat)
    (h : ∀ i < S.n.toNat, PGood (Peer.handler G (S.env i).clock (S.env i).log (S.env i).mlock (S.env i).scratch (S.env i).rnd
      (msg i) (c0 i).step) (Q i) ⟨c0 i, (S.env i).buf (peerOutputSize (c0 i))⟩) :
    ∃ s : ℕ → PRun, callPeers G S.env msg 0 ((List.range S.n.toNat).map c0) =
      .ok (List.replicate S.n.toNat 0, (List.range S.n.toNat).map (fun i => pafter 0 (s i).ctx),
        cat S.n.toNat (fun i => (s i).out)) ∧ ∀ i < S.n.toNat, Q i (s i) := by
  have h' := fun i hi => peerNext_ok G (h i hi)
  haveI : Nonempty PRun := ⟨(h' 0 hn).choose⟩
  choose! s hs using h'
  refine ⟨s, ?_, fun i hi => (hs i hi).2⟩
  rw [List.range_eq_range', callPeers_range G (c := fun i => pafter 0 (s i).ctx) (o := fun i => (s i).out) S.n.toNat 0
    (fun j _ hj => (hs j (by omega)).1)]
  unfold cat
  rw [List.range_eq_range']

theorem round_ok {tp tp' : TP} {out wire w : Bytes} {ps ps' : List PeerState} {res : List Int}
    (ht : tpNext G S.tpEnv.clock S.tpEnv.log S.tpEnv.scratch tp wire (S.tpEnv.buf (tpOutputSize tp)) = .ok (0, tp', out))
    (hp : callPeers G S.env (delivered tp' out) 0 ps = .ok (List.replicate S.n.toNat 0, ps', w)) :
    Net.round G S.tpEnv S.env ⟨tp, ps, wire, res⟩ = .ok ⟨tp', ps', w, res ++ 0 :: List.replicate S.n.toNat 0⟩ := by
  unfold Net.round
  dsimp only
  rw [ht, C.ok_bind]
  dsimp only
  rw [hp, C.ok_bind]

theorem buf_length (e : PEnv) (k : ℕ) : (e.buf k).length = k := by simp [PEnv.buf]

/-! ## Delivery -/

theorem delivered_eq {tp : TP} {out : Bytes} {i off len : ℕ} {r : Int}
    (h : tpPeerMsg tp out.length (UInt8.ofNat i) = (r, some (some off, len))) : delivered tp out i = slice out off len := by
  unfold delivered
  rw [h]

theorem ofNat_lt (hS : S.Honest lo) {tp : TP} (hn : tp.n = S.n) {i : ℕ} (hi : i < S.n.toNat) :
    (UInt8.ofNat i).toNat = i ∧ ¬ UInt8.ofNat i ≥ tp.n := by
  have := hS.n_le
  have e : (UInt8.ofNat i).toNat = i := by rw [UInt8.toNat_ofNat', Nat.mod_eq_of_lt (by omega)]
  refine ⟨e, ?_⟩
  rw [ge_iff_le, UInt8.le_iff_toNat_le, e, hn]
  omega

/-- The whole output is for every peer. -/
theorem delivered_all (hS : S.Honest lo) {tp : TP} {out : Bytes} {i : ℕ} (hn : tp.n = S.n) (ht : tp.t = S.t)
    (hi : i < S.n.toNat)
    (h : tp.prev = 1 ∧ out.length = msg2Size * S.n.toNat + hdrSize ∨ tp.prev = 4 ∧ out.length = hdrSize + msg6Size S.t * S.n.toNat ∨
      tp.prev = 6 ∧ out.length = msg10Size S.n ∨ tp.prev = 8 ∧ out.length = msg20Size) : delivered tp out i = out := by
  obtain ⟨-, e2⟩ := ofNat_lt hS hn hi
  have key : ∀ r, tpPeerMsg tp out.length (UInt8.ofNat i) = (r, some (some 0, out.length)) → delivered tp out i = out :=
    fun r h => by rw [delivered_eq h, slice_all]
  unfold tpPeerMsg at key
  rw [if_neg e2, hn, ht] at key
  rcases h with ⟨h, hl⟩ | ⟨h, hl⟩ | ⟨h, hl⟩ | ⟨h, hl⟩ <;> rw [h, hl] at key <;> exact key _ rfl

/-- The output consists of parts for the peers. -/
theorem delivered_part (hS : S.Honest lo) {tp : TP} {g : ℕ → Bytes} {i sz : ℕ} (hn : tp.n = S.n) (hi : i < S.n.toNat)
    (hg : ∀ j < S.n.toNat, (g j).length = sz)
    (h : tp.prev = 0 ∧ sz = msg1Size ∨ tp.prev = 2 ∧ sz = msg4Size * S.n.toNat ∨ tp.prev = 3 ∧ sz = msg5Size * S.n.toNat ∨
      tp.prev = 5 ∧ sz = S.n.toNat * msg8Size) : delivered tp (cat S.n.toNat g) i = g i := by
  obtain ⟨e1, e2⟩ := ofNat_lt hS hn hi
  have key : ∀ r, tpPeerMsg tp (cat S.n.toNat g).length (UInt8.ofNat i) = (r, some (some (i * sz), sz)) →
      delivered tp (cat S.n.toNat g) i = g i :=
    fun r h => by rw [delivered_eq h, slice_cat hg hi]
  unfold tpPeerMsg at key
  rw [if_neg e2, hn, e1] at key
  rcases h with ⟨h, rfl⟩ | ⟨h, rfl⟩ | ⟨h, rfl⟩ | ⟨h, rfl⟩ <;> rw [h] at key <;> dsimp only at key
  · exact key _ rfl
  · rw [← Nat.mul_assoc] at key
    exact key _ rfl
  · rw [← Nat.mul_assoc] at key
    exact key _ rfl
  · rw [← Nat.mul_assoc] at key
    exact key _ rfl

theorem delivered_none (hS : S.Honest lo) {tp : TP} {out : Bytes} {i : ℕ} (hn : tp.n = S.n) (hi : i < S.n.toNat)
    (h : tp.prev = 9) : delivered tp out i = [] := by
  obtain ⟨-, e2⟩ := ofNat_lt hS hn hi
  have : tpPeerMsg tp out.length (UInt8.ofNat i) = (0, some (none, 0)) := by
    unfold tpPeerMsg
    rw [if_neg e2, h]
    rfl
  unfold delivered
  rw [this]

/-! ## Between the rounds -/

/-- The parties between two rounds: the trusted party is in step `st` and the peers are in step `ps`, all with the same
transcript. Peer `i` knows `P i`. -/
structure Between (S : Setup) (lo m : ℕ) (b : ℕ → UInt64) (P : ℕ → Know → Prop) (st ps : ℕ) (tp : TP)
    (cs : ℕ → PeerState) : Prop where
  tpAt : TpAt S lo m b tp
  pAt : ∀ i < S.n.toNat, ∃ K, PAt S lo i (S.tpEnv.clock tp.ticks) b K (cs i) ∧ P i K
  step : tp.step = st
  pstep : ∀ i < S.n.toNat, (cs i).step = ps
  tr : ∀ i < S.n.toNat, (cs i).transcript = tp.transcript

/-- Time stamps of the messages of the peers, one for each. -/
def Single (S : Setup) (lo : ℕ) (b : ℕ → UInt64) (cs : ℕ → PeerState) (ts : ℕ → UInt64) : Prop :=
  ∀ j < S.n.toNat, InWin lo S.eps (ts j) ∧ b j ≤ ts j ∧ ts j ≤ (S.env j).clock (cs j).ticks

/-- Time stamps of the messages of the peers, `n` for each. -/
def Matrix (S : Setup) (lo : ℕ) (b : ℕ → UInt64) (cs : ℕ → PeerState) (ts : ℕ → ℕ → UInt64) : Prop :=
  ∀ j < S.n.toNat, Chain lo S.eps (b j) S.n.toNat (ts j) ((S.env j).clock (cs j).ticks)

/-- The clocks of the peers. -/
def clk (S : Setup) (cs : ℕ → PeerState) (j : ℕ) : UInt64 := (S.env j).clock (cs j).ticks

theorem tp_mono (hS : S.Honest lo) {x y : ℕ} (h : x ≤ y) : S.tpEnv.clock x ≤ S.tpEnv.clock y := hS.tpClock.mono x y h

/-- The one stamp of every peer, chosen. -/
theorem single_choose {cs cs' : ℕ → PeerState} {o : ℕ → Bytes} {F : ℕ → UInt64 → Bytes}
    (h : ∀ i < S.n.toNat, ∃ t, InWin lo S.eps t ∧ (S.env i).clock (cs i).ticks ≤ t ∧ t ≤ (S.env i).clock (cs' i).ticks ∧
      o i = F i t) :
    ∃ ts, Single S lo (clk S cs) cs' ts ∧ cat S.n.toNat o = cat S.n.toNat fun i => F i (ts i) := by
  choose! ts hts using h
  refine ⟨ts, fun j hj => ⟨(hts j hj).1, (hts j hj).2.1, (hts j hj).2.2.1⟩, cat_congr fun k hk => (hts k hk).2.2.2⟩

theorem matrix_choose {cs cs' : ℕ → PeerState} {o : ℕ → Bytes} {F : ℕ → ℕ → UInt64 → Bytes}
    (h : ∀ i < S.n.toNat, ∃ ts, Chain lo S.eps ((S.env i).clock (cs i).ticks) S.n.toNat ts ((S.env i).clock (cs' i).ticks) ∧
      o i = cat S.n.toNat fun j => F i j (ts j)) :
    ∃ ts, Matrix S lo (clk S cs) cs' ts ∧ cat S.n.toNat o = cat S.n.toNat fun i => cat S.n.toNat fun j => F i j (ts i j) := by
  choose! ts hts using h
  exact ⟨ts, fun j hj => (hts j hj).1, cat_congr fun k hk => (hts k hk).2⟩

/-- One round. -/
theorem round_gen {tp : TP} {cs : ℕ → PeerState} {wire : Bytes} {res : List Int} {T : Run → Prop} {Q : Run → ℕ → PRun → Prop}
    (hS : S.Honest lo) (hst : tp.step ≤ 9)
    (ht : Good (tpHandler G S.tpEnv.clock S.tpEnv.log S.tpEnv.scratch wire tp.step) T
      ⟨tp, S.tpEnv.buf (tpOutputSize tp), 0, 0, []⟩)
    (hp : ∀ s, T s → ∀ i < S.n.toNat, PGood (Peer.handler G (S.env i).clock (S.env i).log (S.env i).mlock (S.env i).scratch
      (S.env i).rnd (delivered (after tp.step 0 s.ctx) s.out i) (cs i).step) (Q s i)
      ⟨cs i, (S.env i).buf (peerOutputSize (cs i))⟩) :
    ∃ (s : Run) (q : ℕ → PRun), Net.round G S.tpEnv S.env ⟨tp, (List.range S.n.toNat).map cs, wire, res⟩ =
        .ok ⟨after tp.step 0 s.ctx, (List.range S.n.toNat).map (fun i => pafter 0 (q i).ctx),
          cat S.n.toNat fun i => (q i).out, res ++ 0 :: List.replicate S.n.toNat 0⟩ ∧
      T s ∧ ∀ i < S.n.toNat, Q s i (q i) := by
  obtain ⟨hn3, hn128⟩ := n_lt hS
  obtain ⟨s, hs, hT⟩ := tpNext_ok G hst ht
  obtain ⟨q, hq, hQ⟩ := peers_ok G (S := S) (by omega) (hp s hT)
  exact ⟨s, q, round_ok G hs hq, hT, hQ⟩

theorem PGood.mono {m : H PRun Int} {Q Q' : PRun → Prop} {s : PRun} (h : PGood m Q s) (hQ : ∀ s, Q s → Q' s) : PGood m Q' s :=
  Wp.mono h id (fun _ _ h => h) (fun _ _ h => ⟨h.1, hQ _ h.2⟩)

/-- The parties after a round. -/
theorem Between.next {m m' : ℕ} {b b1 : ℕ → UInt64} {P P' : ℕ → Know → Prop} {st ps st' ps' : ℕ} {tp : TP}
    {cs : ℕ → PeerState} {s : TP} {q : ℕ → PRun} (M : Between S lo m b P st ps tp cs) (hT : TpAt S lo m' b1 s)
    (hb1 : ∀ j < S.n.toNat, b1 j ≤ clk S cs j) (hst : (after tp.step 0 s).step = st')
    (hq : ∀ i < S.n.toNat, ∃ K btp b2, PAt S lo i btp b2 K (q i).ctx ∧ P' i K ∧ btp ≤ S.tpEnv.clock s.ticks ∧
      ∀ j < S.n.toNat, b2 j ≤ clk S cs j)
    (hps : ∀ i < S.n.toNat, (q i).ctx.step + 1 = ps')
    (htr : ∀ i < S.n.toNat, (q i).ctx.transcript = s.transcript) :
    Between S lo m' (clk S cs) P' st' ps' (after tp.step 0 s) (fun i => pafter 0 (q i).ctx) where
  tpAt := (hT.after _ _).mono hb1
  pAt := fun i hi => by
    obtain ⟨K, btp, b2, A, hK, h1, h2⟩ := hq i hi
    exact ⟨K, (A.mono h1 h2).steps _ _, hK⟩
  step := hst
  pstep := hps
  tr := htr

theorem after_step {k : ℕ} {c : TP} (hk : k ≠ 6) : (after k 0 c).step = c.step + 1 := by
  show (if k = 6 then _ else _) = _
  rw [if_neg hk]
  rfl

/-! ## Round 0 -/

theorem round0 {b : ℕ → UInt64} {tp : TP} {cs : ℕ → PeerState} {res : List Int} (hS : S.Honest lo)
    (M : Between S lo 0 b (fun _ _ => True) 0 0 tp cs) (hb : ∀ j < S.n.toNat, b j ≤ clk S cs j)
    (hlt : ∀ i < S.n.toNat, (cs i).ltSk = Signing.skOf (S.lt i)) :
    ∃ tp' cs' ts, Net.round G S.tpEnv S.env ⟨tp, (List.range S.n.toNat).map cs, [], res⟩ =
        .ok ⟨tp', (List.range S.n.toNat).map cs', cat S.n.toNat fun j => msg2 S j (ts j) ++
          (Signing.sign (Signing.skOf (S.lt j)) (msg2 S j (ts j))).toList, res ++ 0 :: List.replicate S.n.toNat 0⟩ ∧
      Between S lo 0 (clk S cs) (fun _ K => K.me = true) 1 1 tp' cs' ∧ Single S lo (clk S cs) cs' ts := by
  have hT := M.tpAt
  have hs0 := M.step
  obtain ⟨s, q, hr, ⟨tts, hch, hout, hctx⟩, hQ⟩ := round_gen G (tp := tp) (cs := cs) (wire := []) (res := res) hS
    (by rw [hs0]; omega)
    (by rw [hs0]; exact tp1_ok hS hT (by rw [buf_length]; unfold tpOutputSize; rw [hs0, hT.n]; try rfl))
    (Q := fun s i q => ∃ K btp, PAt S lo i btp b K q.ctx ∧ K.me = true ∧ btp ≤ S.tpEnv.clock s.ctx.ticks ∧
      PKept (cs i) q.ctx ∧ ∃ ts, InWin lo S.eps ts ∧
        (S.env i).clock (cs i).ticks ≤ ts ∧ ts ≤ (S.env i).clock q.ctx.ticks ∧
        q.out = msg2 S i ts ++ (Signing.sign (Signing.skOf (S.lt i)) (msg2 S i ts)).toList) (by
    rintro s ⟨tts, hch, hout, hctx⟩ i hi
    obtain ⟨K, A, -⟩ := M.pAt i hi
    rw [hout, delivered_part hS (tp := after tp.step 0 s.ctx) (g := fun i => tmsg S 1 (idx i) (tts i) []) (sz := 111)
      (by show s.ctx.n = _; rw [hctx]; exact hT.n) hi (fun i _ => by rw [tmsg_length]; rfl)
      (.inl ⟨by show s.ctx.step = 0; rw [hctx]; exact hs0, rfl⟩), M.pstep i hi]
    refine (step23_ok hS hi A (hch.le i (by omega)) (hch.win i (by omega)) (hlt i hi) ?_).mono ?_
    · rw [buf_length]; unfold peerOutputSize; rw [M.pstep i hi]; try rfl
    · rintro q ⟨h1, h2, h3⟩
      exact ⟨_, _, h1, rfl, hch.ge i (by omega), h2, h3⟩)
  obtain ⟨ts, hsingle, hcat⟩ := single_choose (lo := lo) (S := S) (cs := cs) (cs' := fun i => pafter 0 (q i).ctx)
    (o := fun i => (q i).out) (F := fun i ts => msg2 S i ts ++ (Signing.sign (Signing.skOf (S.lt i)) (msg2 S i ts)).toList)
    (fun i hi => by obtain ⟨K, btp, -, -, -, -, h⟩ := hQ i hi; exact h)
  refine ⟨_, _, ts, by rw [hr, hcat], M.next (s := s.ctx) (b1 := b) (by rw [hctx]; exact hT.tick _) hb
    (by rw [after_step (by omega), hctx]; exact congrArg (· + 1) hs0) ?_ ?_ ?_, hsingle⟩
  · intro i hi
    obtain ⟨K, btp, h1, h2, h3, -⟩ := hQ i hi
    exact ⟨K, btp, b, h1, h2, h3, hb⟩
  · intro i hi
    obtain ⟨K, btp, -, -, -, h, -⟩ := hQ i hi
    rw [h.step, M.pstep i hi]
  · intro i hi
    obtain ⟨K, btp, -, -, -, h, -⟩ := hQ i hi
    rw [h.transcript, M.tr i hi, hctx]

/-! ## Round 1 -/

/-- The known facts after step 5. -/
structure Know5 (S : Setup) (i : ℕ) (K : Know) : Prop where
  me : K.me = true
  keys : K.keys = S.n.toNat
  dev : K.dev = some (S.n.toNat, S.n.toNat)
  outs : ∀ j < S.n.toNat, K.outs j = some (link S i j).i1

theorem round1 {b : ℕ → UInt64} {tp : TP} {cs : ℕ → PeerState} {res : List Int} {ts : ℕ → UInt64} (hS : S.Honest lo)
    (M : Between S lo 0 b (fun _ K => K.me = true) 1 1 tp cs) (hts : Single S lo b cs ts) :
    ∃ tp' cs' ts', Net.round G S.tpEnv S.env ⟨tp, (List.range S.n.toNat).map cs, cat S.n.toNat fun j => msg2 S j (ts j) ++
          (Signing.sign (Signing.skOf (S.lt j)) (msg2 S j (ts j))).toList, res⟩ =
        .ok ⟨tp', (List.range S.n.toNat).map cs', cat S.n.toNat fun i => cat S.n.toNat fun j =>
          pmsg S i 4 (idx j) (ts' i j) (link S i j).m1, res ++ 0 :: List.replicate S.n.toNat 0⟩ ∧
      Between S lo S.n.toNat (clk S cs) (Know5 S) 2 2 tp' cs' ∧ Matrix S lo (clk S cs) cs' ts' := by
  have hT := M.tpAt
  have hs0 := M.step
  have hts1 := fun j hj => (hts j hj).1
  have hts2 := fun j hj => (hts j hj).2.1
  have hts3 := fun j hj => (hts j hj).2.2
  have hg : ∀ j < S.n.toNat, (msg2 S j (ts j)).length = 175 := fun j _ => msg2_length j _
  have hlen : ∀ tt, (tmsg S 3 0xff tt (cat S.n.toNat fun j => msg2 S j (ts j))).length = 175 * S.n.toNat + 111 := fun tt => by
    rw [tmsg_length, cat_length hg]; ring
  obtain ⟨s, q, hr, ⟨hT1, tt, hw, htt1, htt2, hout, hst, htr⟩, hQ⟩ := round_gen G (tp := tp) (cs := cs) (wire := cat S.n.toNat fun j => msg2 S j (ts j) ++
          (Signing.sign (Signing.skOf (S.lt j)) (msg2 S j (ts j))).toList) (res := res) hS
    (by rw [hs0]; omega)
    (by rw [hs0]; exact tp4_ok hS hT hts2 hts1 (by rw [buf_length]; unfold tpOutputSize; rw [hs0, hT.n]; try rfl))
    (Q := fun s i q => ∃ K btp, PAt S lo i btp ts K q.ctx ∧ Know5 S i K ∧ btp ≤ S.tpEnv.clock s.ctx.ticks ∧
      q.ctx.step = (cs i).step ∧ q.ctx.transcript = s.ctx.transcript ∧
      ∃ ts', Chain lo S.eps ((S.env i).clock (cs i).ticks) S.n.toNat ts' ((S.env i).clock q.ctx.ticks) ∧
        q.out = cat S.n.toNat fun j => pmsg S i 4 (idx j) (ts' j) (link S i j).m1) (by
    rintro s ⟨hT1, tt, hw, htt1, htt2, hout, hst, htr⟩ i hi
    obtain ⟨K, A, hme⟩ := M.pAt i hi
    rw [delivered_all hS (tp := after tp.step 0 s.ctx) hT1.n hT1.t hi (.inl ⟨by show s.ctx.step = 1; rw [hst]; exact hs0, by rw [hout]; exact hlen tt⟩),
      M.pstep i hi]
    rw [hout]
    refine (step5_ok hS hi A hme htt1 hw hts2 hts1 ?_).mono ?_
    · rw [buf_length]; unfold peerOutputSize; rw [M.pstep i hi, A.n]; try rfl
    · rintro q ⟨h1, h2, h3, h4⟩
      exact ⟨_, _, h1, ⟨hme, rfl, rfl, fun j hj => upto_lt (F := fun j => (link S i j).i1) hj⟩, htt2, by rw [h2, M.pstep i hi], by rw [h3, M.tr i hi, htr, hout], h4⟩)
  obtain ⟨ts', hm, hcat⟩ := matrix_choose (lo := lo) (S := S) (cs := cs) (cs' := fun i => pafter 0 (q i).ctx)
    (o := fun i => (q i).out) (F := fun i j ts => pmsg S i 4 (idx j) ts (link S i j).m1)
    (fun i hi => by obtain ⟨K, btp, -, -, -, -, -, h⟩ := hQ i hi; exact h)
  refine ⟨_, _, ts', by rw [hr, hcat], M.next (s := s.ctx) hT1 hts3
    (by rw [after_step (by omega), hst]; exact congrArg (· + 1) hs0) ?_ ?_ ?_, hm⟩
  · intro i hi
    obtain ⟨K, btp, h1, h2, h3, -⟩ := hQ i hi
    exact ⟨K, btp, ts, h1, h2, h3, hts3⟩
  · intro i hi
    obtain ⟨K, btp, -, -, -, h, -⟩ := hQ i hi
    rw [h, M.pstep i hi]
  · intro i hi
    obtain ⟨K, btp, -, -, -, -, h, -⟩ := hQ i hi
    exact h

/-! ## Round 2 -/

structure Know7 (S : Setup) (i : ℕ) (K : Know) : Prop where
  me : K.me = true
  keys : K.keys = S.n.toNat
  dev : K.dev = some (S.n.toNat, 2 * S.n.toNat)
  outs : ∀ j < S.n.toNat, K.outs j = some (link S i j).i1
  ins : ∀ j < S.n.toNat, K.ins j = some (link S j i).r2

theorem round2 {b : ℕ → UInt64} {tp : TP} {cs : ℕ → PeerState} {res : List Int} {ts : ℕ → ℕ → UInt64} (hS : S.Honest lo)
    (M : Between S lo S.n.toNat b (Know5 S) 2 2 tp cs) (hts : Matrix S lo b cs ts) :
    ∃ tp' cs' ts', Net.round G S.tpEnv S.env ⟨tp, (List.range S.n.toNat).map cs, cat S.n.toNat fun i => cat S.n.toNat fun j =>
          pmsg S i 4 (idx j) (ts i j) (link S i j).m1, res⟩ =
        .ok ⟨tp', (List.range S.n.toNat).map cs', cat S.n.toNat fun i => cat S.n.toNat fun j =>
          pmsg S i 5 (idx j) (ts' i j) (link S j i).m2, res ++ 0 :: List.replicate S.n.toNat 0⟩ ∧
      Between S lo S.n.toNat (clk S cs) (Know7 S) 3 3 tp' cs' ∧ Matrix S lo (clk S cs) cs' ts' := by
  have hT := M.tpAt
  have hs0 := M.step
  have hg : ∀ i < S.n.toNat, (cat S.n.toNat fun j => pmsg S j 4 (idx i) (ts j i) (link S j i).m1).length = 159 * S.n.toNat := by
    intro i hi
    rw [cat_length (sz := 159) fun j _ => by rw [pmsg_length, (link_of S j i).l1]]; ring
  obtain ⟨s, q, hr, ⟨hT1, hkept, hout⟩, hQ⟩ := round_gen G (tp := tp) (cs := cs) (wire := cat S.n.toNat fun i =>
      cat S.n.toNat fun j => pmsg S i 4 (idx j) (ts i j) (link S i j).m1) (res := res) hS
    (by rw [hs0]; omega)
    (by rw [hs0]; exact tp68_ok hS hT hts (fun j _ i _ => (link_of S j i).l1) (by rw [hs0]; rfl)
          (by rw [buf_length]; unfold tpOutputSize; rw [hs0, hT.n]; try rfl))
    (Q := fun s i q => ∃ K b2, PAt S lo i (S.tpEnv.clock tp.ticks) b2 K q.ctx ∧ Know7 S i K ∧
      (∀ j < S.n.toNat, b2 j ≤ clk S cs j) ∧ PKept (cs i) q.ctx ∧
      ∃ ts', Chain lo S.eps ((S.env i).clock (cs i).ticks) S.n.toNat ts' ((S.env i).clock q.ctx.ticks) ∧
        q.out = cat S.n.toNat fun j => pmsg S i 5 (idx j) (ts' j) (link S j i).m2) (by
    rintro s ⟨hT1, hkept, hout⟩ i hi
    obtain ⟨K, A, hK⟩ := M.pAt i hi
    rw [hout, delivered_part hS (tp := after tp.step 0 s.ctx) (g := fun i => cat S.n.toNat fun j => pmsg S j 4 (idx i) (ts j i) (link S j i).m1)
      (sz := 159 * S.n.toNat) hT1.n hi hg (.inr (.inl ⟨by show s.ctx.step = 2; rw [hkept.step]; exact hs0, rfl⟩)), M.pstep i hi]
    refine (step7_ok hS hi A hK.me hK.keys hK.dev (fun j hj => (hts j hj).le i (by omega))
      (fun j hj => (hts j hj).win i (by omega)) ?_).mono ?_
    · rw [buf_length]; unfold peerOutputSize; rw [M.pstep i hi, A.n]; try rfl
    · rintro q ⟨h1, h2, h3⟩
      exact ⟨_, _, h1, ⟨hK.me, hK.keys, rfl, hK.outs, fun j hj => upto_lt (F := fun j => (link S j i).r2) hj⟩, fun j hj => (hts j hj).ge i (by omega), h2, h3⟩)
  obtain ⟨ts', hm, hcat⟩ := matrix_choose (lo := lo) (S := S) (cs := cs) (cs' := fun i => pafter 0 (q i).ctx)
    (o := fun i => (q i).out) (F := fun i j ts => pmsg S i 5 (idx j) ts (link S j i).m2)
    (fun i hi => by obtain ⟨K, b2, -, -, -, -, h⟩ := hQ i hi; exact h)
  refine ⟨_, _, ts', by rw [hr, hcat], M.next (s := s.ctx) hT1 (fun j _ => UInt64.le_refl _)
    (by rw [after_step (by omega), hkept.step]; exact congrArg (· + 1) hs0) ?_ ?_ ?_, hm⟩
  · intro i hi
    obtain ⟨K, b2, h1, h2, h3, -⟩ := hQ i hi
    exact ⟨K, _, b2, h1, h2, tp_mono hS hkept.ticks, h3⟩
  · intro i hi
    obtain ⟨K, b2, -, -, -, h, -⟩ := hQ i hi
    rw [h.step, M.pstep i hi]
  · intro i hi
    obtain ⟨K, b2, -, -, -, h, -⟩ := hQ i hi
    rw [h.transcript, M.tr i hi, hkept.transcript]

/-! ## Round 3 -/

structure Know911 (S : Setup) (i : ℕ) (K : Know) : Prop where
  me : K.me = true
  keys : K.keys = S.n.toNat
  dev : K.dev = some (S.n.toNat, 2 * S.n.toNat)
  outs : ∀ j < S.n.toNat, K.outs j = some (link S i j).i2
  ins : ∀ j < S.n.toNat, K.ins j = some (link S j i).r2
  shares : ∀ j < S.n.toNat, K.shares j = some (dealtTo S i j)

theorem round3 {b : ℕ → UInt64} {tp : TP} {cs : ℕ → PeerState} {res : List Int} {ts : ℕ → ℕ → UInt64} (hS : S.Honest lo)
    (M : Between S lo S.n.toNat b (Know7 S) 3 3 tp cs) (hts : Matrix S lo b cs ts) :
    ∃ tp' cs' ts', Net.round G S.tpEnv S.env ⟨tp, (List.range S.n.toNat).map cs, cat S.n.toNat fun i => cat S.n.toNat fun j =>
          pmsg S i 5 (idx j) (ts i j) (link S j i).m2, res⟩ =
        .ok ⟨tp', (List.range S.n.toNat).map cs', cat S.n.toNat fun i =>
          pmsg S i 6 0xff (ts' i) (body6 G S i), res ++ 0 :: List.replicate S.n.toNat 0⟩ ∧
      Between S lo S.n.toNat (clk S cs) (Know911 S) 4 4 tp' cs' ∧ Single S lo (clk S cs) cs' ts' := by
  have hT := M.tpAt
  have hs0 := M.step
  have hg : ∀ i < S.n.toNat, (cat S.n.toNat fun j => pmsg S j 5 (idx i) (ts j i) (link S i j).m2).length = 159 * S.n.toNat := by
    intro i hi
    rw [cat_length (sz := 159) fun j _ => by rw [pmsg_length, (link_of S i j).l2]]; ring
  obtain ⟨s, q, hr, ⟨hT1, hkept, hout⟩, hQ⟩ := round_gen G (tp := tp) (cs := cs) (wire := cat S.n.toNat fun i =>
      cat S.n.toNat fun j => pmsg S i 5 (idx j) (ts i j) (link S j i).m2) (res := res) hS
    (by rw [hs0]; omega)
    (by rw [hs0]; exact tp68_ok (body := fun j i => (link S i j).m2) hS hT hts (fun j _ i _ => (link_of S i j).l2)
          (by rw [hs0]; rfl) (by rw [buf_length]; unfold tpOutputSize; rw [hs0, hT.n]; try rfl))
    (Q := fun s i q => ∃ K b2, PAt S lo i (S.tpEnv.clock tp.ticks) b2 K q.ctx ∧ Know911 S i K ∧
      (∀ j < S.n.toNat, b2 j ≤ clk S cs j) ∧ PKept (cs i) q.ctx ∧
      ∃ tt, InWin lo S.eps tt ∧ (S.env i).clock (cs i).ticks ≤ tt ∧ tt ≤ (S.env i).clock q.ctx.ticks ∧
          q.out = pmsg S i 6 0xff tt (body6 G S i)) (by
    rintro s ⟨hT1, hkept, hout⟩ i hi
    obtain ⟨K, A, hK⟩ := M.pAt i hi
    rw [hout, delivered_part hS (tp := after tp.step 0 s.ctx) (g := fun i => cat S.n.toNat fun j => pmsg S j 5 (idx i) (ts j i) (link S i j).m2)
      (sz := 159 * S.n.toNat) hT1.n hi hg (.inr (.inr (.inl ⟨by show s.ctx.step = 3; rw [hkept.step]; exact hs0, rfl⟩))),
      M.pstep i hi]
    refine (step911_ok G hS hi A hK.me hK.keys hK.dev hK.outs (fun j hj => (hts j hj).le i (by omega))
      (fun j hj => (hts j hj).win i (by omega)) ?_).mono ?_
    · rw [buf_length]; unfold peerOutputSize; rw [M.pstep i hi, A.t]; try rfl
    · rintro q ⟨h1, h2, h3⟩
      exact ⟨_, _, h1, ⟨hK.me, hK.keys, hK.dev, fun j hj => upto_lt (F := fun j => (link S i j).i2) hj, hK.ins, fun j hj => rfl⟩,
        fun j hj => (hts j hj).ge i (by omega), h2, h3⟩)
  obtain ⟨ts', hm, hcat⟩ := single_choose (lo := lo) (S := S) (cs := cs) (cs' := fun i => pafter 0 (q i).ctx)
    (o := fun i => (q i).out) (F := fun i ts => pmsg S i 6 0xff ts (body6 G S i))
    (fun i hi => by obtain ⟨K, b2, -, -, -, -, h⟩ := hQ i hi; exact h)
  refine ⟨_, _, ts', by rw [hr, hcat], M.next (s := s.ctx) hT1 (fun j _ => UInt64.le_refl _)
    (by rw [after_step (by omega), hkept.step]; exact congrArg (· + 1) hs0) ?_ ?_ ?_, hm⟩
  · intro i hi
    obtain ⟨K, b2, h1, h2, h3, -⟩ := hQ i hi
    exact ⟨K, _, b2, h1, h2, tp_mono hS hkept.ticks, h3⟩
  · intro i hi
    obtain ⟨K, b2, -, -, -, h, -⟩ := hQ i hi
    rw [h.step, M.pstep i hi]
  · intro i hi
    obtain ⟨K, b2, -, -, -, h, -⟩ := hQ i hi
    rw [h.transcript, M.tr i hi, hkept.transcript]

/-! ## Round 4 -/

structure Know13 (S : Setup) (i : ℕ) (K : Know) : Prop where
  me : K.me = true
  keys : K.keys = S.n.toNat
  dev : K.dev = some (S.n.toNat, 2 * S.n.toNat)
  ins : ∀ j < S.n.toNat, K.ins j = some (link S j i).r2
  comm : ∀ j < S.n.toNat, K.comm j = some (commits G S j)
  outs : ∀ j < S.n.toNat, K.outs j = some (i3 S i j 1)

theorem round4 {b : ℕ → UInt64} {tp : TP} {cs : ℕ → PeerState} {res : List Int} {ts : ℕ → UInt64} (hS : S.Honest lo)
    (M : Between S lo S.n.toNat b (Know911 S) 4 4 tp cs) (hts : Single S lo b cs ts) :
    ∃ tp' cs' ts', Net.round G S.tpEnv S.env ⟨tp, (List.range S.n.toNat).map cs, cat S.n.toNat fun i =>
          pmsg S i 6 0xff (ts i) (body6 G S i), res⟩ =
        .ok ⟨tp', (List.range S.n.toNat).map cs', cat S.n.toNat fun i => cat S.n.toNat fun j =>
          pmsg S i 8 (idx j) (ts' i j) (body8 S i j), res ++ 0 :: List.replicate S.n.toNat 0⟩ ∧
      Between S lo S.n.toNat (clk S cs) (Know13 G S) 5 5 tp' cs' ∧ Matrix S lo (clk S cs) cs' ts' := by
  have hT := M.tpAt
  have hs0 := M.step
  have hts1 := fun j hj => (hts j hj).1
  have hts2 := fun j hj => (hts j hj).2.1
  have hts3 := fun j hj => (hts j hj).2.2
  have hg : ∀ j < S.n.toNat, (pmsg S j 6 0xff (ts j) (body6 G S j)).length = msg6Size S.t := fun j _ => by
    rw [pmsg_length, body6_length]; rfl
  have hlen : ∀ tt, (tmsg S 7 0xff tt (cat S.n.toNat fun j => pmsg S j 6 0xff (ts j) (body6 G S j))).length =
      hdrSize + msg6Size S.t * S.n.toNat := fun tt => by
    rw [tmsg_length, cat_length hg, Nat.mul_comm]; rfl
  obtain ⟨s, q, hr, ⟨hT1, tt, hw, htt1, htt2, hout, hst, htr⟩, hQ⟩ := round_gen G (tp := tp) (cs := cs)
    (wire := cat S.n.toNat fun i => pmsg S i 6 0xff (ts i) (body6 G S i)) (res := res) hS
    (by rw [hs0]; omega)
    (by rw [hs0]; exact tp12_ok (body := body6 G S) hS hT hts2 hts1 (fun j _ => body6_length G j)
          (by rw [buf_length]; unfold tpOutputSize; rw [hs0, hT.n, hT.t]; try rfl))
    (Q := fun s i q => ∃ K btp, PAt S lo i btp ts K q.ctx ∧ Know13 G S i K ∧ btp ≤ S.tpEnv.clock s.ctx.ticks ∧
      q.ctx.step = (cs i).step ∧ q.ctx.transcript = s.ctx.transcript ∧
      ∃ ts', Chain lo S.eps ((S.env i).clock (cs i).ticks) S.n.toNat ts' ((S.env i).clock q.ctx.ticks) ∧
        q.out = cat S.n.toNat fun j => pmsg S i 8 (idx j) (ts' j) (body8 S i j)) (by
    rintro s ⟨hT1, tt, hw, htt1, htt2, hout, hst, htr⟩ i hi
    obtain ⟨K, A, hK⟩ := M.pAt i hi
    rw [delivered_all hS (tp := after tp.step 0 s.ctx) hT1.n hT1.t hi
      (.inr (.inl ⟨by show s.ctx.step = 4; rw [hst]; exact hs0, by rw [hout]; exact hlen tt⟩)), M.pstep i hi]
    rw [hout]
    refine (step13_ok G hS hi A hK.me hK.keys hK.outs hK.shares htt1 hw hts2 hts1 ?_).mono ?_
    · rw [buf_length]; unfold peerOutputSize; rw [M.pstep i hi, A.n]; try rfl
    · rintro q ⟨h1, h2, h3, h4⟩
      exact ⟨_, _, h1, ⟨hK.me, hK.keys, hK.dev, hK.ins, fun j hj => upto_lt (F := fun j => commits G S j) hj,
        fun j hj => upto_lt (F := fun j => i3 S i j 1) hj⟩, htt2, by rw [h2, M.pstep i hi], by rw [h3, M.tr i hi, htr, hout], h4⟩)
  obtain ⟨ts', hm, hcat⟩ := matrix_choose (lo := lo) (S := S) (cs := cs) (cs' := fun i => pafter 0 (q i).ctx)
    (o := fun i => (q i).out) (F := fun i j ts => pmsg S i 8 (idx j) ts (body8 S i j))
    (fun i hi => by obtain ⟨K, btp, -, -, -, -, -, h⟩ := hQ i hi; exact h)
  refine ⟨_, _, ts', by rw [hr, hcat], M.next (s := s.ctx) hT1 hts3
    (by rw [after_step (by omega), hst]; exact congrArg (· + 1) hs0) ?_ ?_ ?_, hm⟩
  · intro i hi
    obtain ⟨K, btp, h1, h2, h3, -⟩ := hQ i hi
    exact ⟨K, btp, ts, h1, h2, h3, hts3⟩
  · intro i hi
    obtain ⟨K, btp, -, -, -, h, -⟩ := hQ i hi
    rw [h, M.pstep i hi]
  · intro i hi
    obtain ⟨K, btp, -, -, -, -, h, -⟩ := hQ i hi
    exact h

/-! ## Round 5 -/

structure Know15 (S : Setup) (i : ℕ) (K : Know) : Prop where
  me : K.me = true
  keys : K.keys = S.n.toNat
  xshares : ∀ j < S.n.toNat, K.xshares j = some (dealtTo S j i)
  dev : K.dev = some (S.n.toNat, 2 * S.n.toNat)
  outs : ∀ j < S.n.toNat, K.outs j = some (i3 S i j 1)
  ins : ∀ j < S.n.toNat, K.ins j = some (r3 S j i 1)

theorem round5 {b : ℕ → UInt64} {tp : TP} {cs : ℕ → PeerState} {res : List Int} {ts : ℕ → ℕ → UInt64} (hS : S.Honest lo)
    (M : Between S lo S.n.toNat b (Know13 G S) 5 5 tp cs) (hts : Matrix S lo b cs ts) :
    ∃ tp' cs' ts', Net.round G S.tpEnv S.env ⟨tp, (List.range S.n.toNat).map cs, cat S.n.toNat fun i => cat S.n.toNat fun j =>
          pmsg S i 8 (idx j) (ts i j) (body8 S i j), res⟩ =
        .ok ⟨tp', (List.range S.n.toNat).map cs', cat S.n.toNat fun i =>
          pmsg S i 9 0xff (ts' i) (body9 S), res ++ 0 :: List.replicate S.n.toNat 0⟩ ∧
      Between S lo S.n.toNat (clk S cs) (Know15 S) 6 6 tp' cs' ∧ Single S lo (clk S cs) cs' ts' := by
  have hT := M.tpAt
  have hs0 := M.step
  have hg : ∀ i < S.n.toNat, (cat S.n.toNat fun j => pmsg S j 8 (idx i) (ts j i) (body8 S j i)).length = S.n.toNat * 256 := by
    intro i hi
    rw [cat_length (sz := 256) fun j _ => by rw [pmsg_length, body8_length]]
  obtain ⟨s, q, hr, ⟨hT1, hkept, hout⟩, hQ⟩ := round_gen G (tp := tp) (cs := cs) (wire := cat S.n.toNat fun i =>
      cat S.n.toNat fun j => pmsg S i 8 (idx j) (ts i j) (body8 S i j)) (res := res) hS
    (by rw [hs0]; omega)
    (by rw [hs0]; exact tp14_ok (body := body8 S) hS hT hts (fun j _ i _ => body8_length j i)
          (by rw [buf_length]; unfold tpOutputSize; rw [hs0, hT.n]; try rfl))
    (Q := fun s i q => ∃ K b2, PAt S lo i (S.tpEnv.clock tp.ticks) b2 K q.ctx ∧ Know15 S i K ∧
      (∀ j < S.n.toNat, b2 j ≤ clk S cs j) ∧ PKept (cs i) q.ctx ∧
      ∃ tt, InWin lo S.eps tt ∧ (S.env i).clock (cs i).ticks ≤ tt ∧ tt ≤ (S.env i).clock q.ctx.ticks ∧
          q.out = pmsg S i 9 0xff tt (body9 S)) (by
    rintro s ⟨hT1, hkept, hout⟩ i hi
    obtain ⟨K, A, hK⟩ := M.pAt i hi
    rw [hout, delivered_part hS (tp := after tp.step 0 s.ctx) (g := fun i => cat S.n.toNat fun j => pmsg S j 8 (idx i) (ts j i) (body8 S j i))
      (sz := S.n.toNat * 256) hT1.n hi hg (.inr (.inr (.inr ⟨by show s.ctx.step = 5; rw [hkept.step]; exact hs0, rfl⟩))),
      M.pstep i hi]
    refine (step15_ok G hS hi A hK.me hK.keys hK.dev hK.ins hK.comm (fun j hj => (hts j hj).le i (by omega))
      (fun j hj => (hts j hj).win i (by omega)) ?_).mono ?_
    · rw [buf_length]; unfold peerOutputSize; rw [M.pstep i hi, A.n]; try rfl
    · rintro q ⟨h1, h2, h3⟩
      exact ⟨_, _, h1, ⟨hK.me, hK.keys, fun j hj => upto_lt (F := fun j => dealtTo S j i) hj, hK.dev, hK.outs,
        fun j hj => upto_lt (F := fun j => r3 S j i 1) hj⟩,
        fun j hj => (hts j hj).ge i (by omega), h2, h3⟩)
  obtain ⟨ts', hm, hcat⟩ := single_choose (lo := lo) (S := S) (cs := cs) (cs' := fun i => pafter 0 (q i).ctx)
    (o := fun i => (q i).out) (F := fun i ts => pmsg S i 9 0xff ts (body9 S))
    (fun i hi => by obtain ⟨K, b2, -, -, -, -, h⟩ := hQ i hi; exact h)
  refine ⟨_, _, ts', by rw [hr, hcat], M.next (s := s.ctx) hT1 (fun j _ => UInt64.le_refl _)
    (by rw [after_step (by omega), hkept.step]; exact congrArg (· + 1) hs0) ?_ ?_ ?_, hm⟩
  · intro i hi
    obtain ⟨K, b2, h1, h2, h3, -⟩ := hQ i hi
    exact ⟨K, _, b2, h1, h2, tp_mono hS hkept.ticks, h3⟩
  · intro i hi
    obtain ⟨K, b2, -, -, -, h, -⟩ := hQ i hi
    rw [h.step, M.pstep i hi]
  · intro i hi
    obtain ⟨K, b2, -, -, -, h, -⟩ := hQ i hi
    rw [h.transcript, M.tr i hi, hkept.transcript]

/-! ## Round 6 -/

theorem round6 {b : ℕ → UInt64} {tp : TP} {cs : ℕ → PeerState} {res : List Int} {ts : ℕ → UInt64} (hS : S.Honest lo)
    (M : Between S lo S.n.toNat b (Know15 S) 6 6 tp cs) (hts : Single S lo b cs ts) :
    ∃ tp' cs', Net.round G S.tpEnv S.env ⟨tp, (List.range S.n.toNat).map cs, cat S.n.toNat fun i =>
          pmsg S i 9 0xff (ts i) (body9 S), res⟩ =
        .ok ⟨tp', (List.range S.n.toNat).map cs', [], res ++ 0 :: List.replicate S.n.toNat 0⟩ ∧
      Between S lo S.n.toNat (clk S cs) (Know15 S) 8 8 tp' cs' ∧ ∀ j < S.n.toNat, clk S cs j ≤ clk S cs' j := by
  have hT := M.tpAt
  have hs0 := M.step
  have hts1 := fun j hj => (hts j hj).1
  have hts2 := fun j hj => (hts j hj).2.1
  have hts3 := fun j hj => (hts j hj).2.2
  have hbl : (body9 S).length = S.n.toNat + 1 := by simp [body9]
  have hg : ∀ j < S.n.toNat, (pmsg S j 9 0xff (ts j) (body9 S)).length = msg9Size S.n := fun j _ => by
    rw [pmsg_length, hbl]; rfl
  have hlen : ∀ tt, (tmsg S 10 0xff tt (cat S.n.toNat fun j => pmsg S j 9 0xff (ts j) (body9 S))).length =
      msg10Size S.n := fun tt => by
    rw [tmsg_length, cat_length hg]; rfl
  obtain ⟨s, q, hr, ⟨hT1, tt, hw, htt1, htt2, hout, hst, htr⟩, hQ⟩ := round_gen G (tp := tp) (cs := cs)
    (wire := cat S.n.toNat fun i => pmsg S i 9 0xff (ts i) (body9 S)) (res := res) hS
    (by rw [hs0]; omega)
    (by rw [hs0]; exact tp16_ok (body := fun _ => body9 S) hS hT hts2 hts1 (fun j _ => hbl) (fun _ _ => rfl)
          (by rw [buf_length]; unfold tpOutputSize; rw [hs0, hT.n]; try rfl))
    (Q := fun s i q => ∃ K btp, PAt S lo i btp ts K q.ctx ∧ Know15 S i K ∧ btp ≤ S.tpEnv.clock s.ctx.ticks ∧
      q.ctx.step = 7 ∧ q.ctx.transcript = s.ctx.transcript ∧
      (S.env i).clock (cs i).ticks ≤ (S.env i).clock q.ctx.ticks ∧ q.out = []) (by
    rintro s ⟨hT1, tt, hw, htt1, htt2, hout, hst, htr⟩ i hi
    obtain ⟨K, A, hK⟩ := M.pAt i hi
    have hbuf : (S.env i).buf (peerOutputSize (cs i)) = [] := by
      unfold peerOutputSize; rw [M.pstep i hi]; rfl
    rw [delivered_all hS (tp := after tp.step 0 s.ctx) hT1.n hT1.t hi
      (.inr (.inr (.inl ⟨by show s.ctx.step = 6; rw [hst]; exact hs0, by rw [hout]; exact hlen tt⟩))), M.pstep i hi, hbuf]
    rw [hout]
    refine (step17_ok hS hi A hK.keys htt1 hw hts2 hts1).mono ?_
    rintro q ⟨h1, h2, h3, h4, h5⟩
    exact ⟨_, _, h1, hK, htt2, by rw [h2, M.pstep i hi], by rw [h3, M.tr i hi, htr, hout], h4, h5⟩)
  have hcat : (cat S.n.toNat fun i => (q i).out) = [] := by
    have : (cat S.n.toNat fun i => (q i).out) = cat S.n.toNat fun _ => [] := cat_congr fun i hi => by
      obtain ⟨K, btp, -, -, -, -, -, -, h⟩ := hQ i hi; exact h
    rw [this]
    unfold cat
    simp
  refine ⟨_, _, by rw [hr, hcat], M.next (s := s.ctx) hT1 hts3 ?_ ?_ ?_ ?_, ?_⟩
  · show (if tp.step = 6 then _ else _) = 8
    rw [if_pos hs0, hT1.complaintsLen, if_pos rfl, hst, hs0]
  · intro i hi
    obtain ⟨K, btp, h1, h2, h3, -⟩ := hQ i hi
    exact ⟨K, btp, ts, h1, h2, h3, hts3⟩
  · intro i hi
    obtain ⟨K, btp, -, -, -, h, -⟩ := hQ i hi
    rw [h]
  · intro i hi
    obtain ⟨K, btp, -, -, -, -, h, -⟩ := hQ i hi
    exact h
  · intro i hi
    obtain ⟨K, btp, -, -, -, -, -, h, -⟩ := hQ i hi
    exact h

/-! ## The call without message -/

theorem idle_ok {b : ℕ → UInt64} {tp : TP} {cs : ℕ → PeerState} {res : List Int} (hS : S.Honest lo)
    (M : Between S lo S.n.toNat b (Know15 S) 8 8 tp cs) (hb : ∀ j < S.n.toNat, b j ≤ clk S cs j) :
    ∃ cs' ts', Net.idle G S.env ⟨tp, (List.range S.n.toNat).map cs, [], res⟩ =
        .ok ⟨tp, (List.range S.n.toNat).map cs', cat S.n.toNat fun i =>
          pmsg S i 20 0 (ts' i) (Hashes.generichash32 tp.transcript).toList, res ++ List.replicate S.n.toNat 0⟩ ∧
      Between S lo S.n.toNat b (Know15 S) 8 9 tp cs' ∧ Single S lo b cs' ts' := by
  obtain ⟨hn3, hn128⟩ := n_lt hS
  obtain ⟨q, hq, hQ⟩ := peers_ok G (S := S) (msg := fun _ => []) (c0 := cs) (Q := fun i q =>
    ∃ K, PAt S lo i (S.tpEnv.clock tp.ticks) b K q.ctx ∧ Know15 S i K ∧ PKept (cs i) q.ctx ∧
      ∃ tt, InWin lo S.eps tt ∧ (S.env i).clock (cs i).ticks ≤ tt ∧ tt ≤ (S.env i).clock q.ctx.ticks ∧
          q.out = pmsg S i 20 0 tt (Hashes.generichash32 tp.transcript).toList) (by omega) (by
    intro i hi
    obtain ⟨K, A, hK⟩ := M.pAt i hi
    rw [M.pstep i hi]
    refine (step19_ok hS hi A hK.me ?_).mono ?_
    · rw [buf_length]; unfold peerOutputSize; rw [M.pstep i hi]; rfl
    · rintro q ⟨h1, h2, tt, h3, h4, h5, h6⟩
      unfold pmsg20 at h6
      rw [M.tr i hi] at h6
      exact ⟨_, h1, hK, h2, tt, h3, h4, h5, h6⟩)
  obtain ⟨ts', hm, hcat⟩ := single_choose (lo := lo) (S := S) (cs := cs) (cs' := fun i => pafter 0 (q i).ctx)
    (o := fun i => (q i).out) (F := fun i ts => pmsg S i 20 0 ts (Hashes.generichash32 tp.transcript).toList)
    (fun i hi => by obtain ⟨K, -, -, -, h⟩ := hQ i hi; exact h)
  refine ⟨fun i => pafter 0 (q i).ctx, ts', ?_, ⟨M.tpAt, ?_, M.step, ?_, ?_⟩, ?_⟩
  · unfold Net.idle
    dsimp only
    rw [hq, C.ok_bind]
    dsimp only
    rw [hcat, List.nil_append]
  · intro i hi
    obtain ⟨K, A, hK, -⟩ := hQ i hi
    exact ⟨K, A.steps _ _, hK⟩
  · intro i hi
    obtain ⟨K, -, -, h, -⟩ := hQ i hi
    show (q i).ctx.step + 1 = 9
    rw [h.step, M.pstep i hi]
  · intro i hi
    obtain ⟨K, -, -, h, -⟩ := hQ i hi
    show (q i).ctx.transcript = _
    rw [h.transcript, M.tr i hi]
  · intro j hj
    obtain ⟨h1, h2, h3⟩ := hm j hj
    exact ⟨h1, UInt64.le_trans (hb j hj) h2, h3⟩

/-! ## Round 7 -/

theorem round7 {b : ℕ → UInt64} {tp : TP} {cs : ℕ → PeerState} {res : List Int} {ts : ℕ → UInt64} (hS : S.Honest lo)
    (M : Between S lo S.n.toNat b (Know15 S) 8 9 tp cs) (hts : Single S lo b cs ts) :
    ∃ tp' cs' ts', Net.round G S.tpEnv S.env ⟨tp, (List.range S.n.toNat).map cs, cat S.n.toNat fun i =>
          pmsg S i 20 0 (ts i) (Hashes.generichash32 tp.transcript).toList, res⟩ =
        .ok ⟨tp', (List.range S.n.toNat).map cs', cat S.n.toNat fun i =>
          pmsg S i 22 0 (ts' i) [79, 75], res ++ 0 :: List.replicate S.n.toNat 0⟩ ∧
      TpAt S lo S.n.toNat (clk S cs) tp' ∧ tp'.step = 9 ∧ Single S lo (clk S cs) cs' ts' ∧
      ∀ i < S.n.toNat, (cs' i).step = 10 ∧ (cs' i).share = finalShare S i ∧
        ∃ K btp b', PAt S lo i btp b' K (cs' i) ∧ Know15 S i K := by
  have hT := M.tpAt
  have hs0 := M.step
  have hts1 := fun j hj => (hts j hj).1
  have hts2 := fun j hj => (hts j hj).2.1
  have hts3 := fun j hj => (hts j hj).2.2
  have hlen : ∀ tt, (tmsg S 21 0xff tt [79, 75]).length = msg20Size := fun tt => by
    rw [tmsg_length]; rfl
  obtain ⟨s, q, hr, ⟨hT1, tt, hw, htt1, htt2, hout, hst⟩, hQ⟩ := round_gen G (tp := tp) (cs := cs)
    (wire := cat S.n.toNat fun i => pmsg S i 20 0 (ts i) (Hashes.generichash32 tp.transcript).toList) (res := res) hS
    (by rw [hs0]; omega)
    (by rw [hs0]; exact tp20_ok hS hT hts2 hts1 (by rw [buf_length]; unfold tpOutputSize; rw [hs0]; try rfl))
    (Q := fun s i q => q.ctx.step = 9 ∧ q.ctx.share = finalShare S i ∧
      (∃ K btp b', PAt S lo i btp b' K q.ctx ∧ Know15 S i K) ∧
      ∃ ts, InWin lo S.eps ts ∧ (S.env i).clock (cs i).ticks ≤ ts ∧ ts ≤ (S.env i).clock q.ctx.ticks ∧
          q.out = pmsg S i 22 0 ts [79, 75]) (by
    rintro s ⟨hT1, tt, hw, htt1, htt2, hout, hst⟩ i hi
    obtain ⟨K, A, hK⟩ := M.pAt i hi
    rw [delivered_all hS (tp := after tp.step 0 s.ctx) hT1.n hT1.t hi
      (.inr (.inr (.inr ⟨by show s.ctx.step = 8; rw [hst]; exact hs0, by rw [hout]; exact hlen tt⟩))), M.pstep i hi]
    rw [hout]
    refine (step21_ok hS hi A hK.me hK.xshares htt1 hw ?_).mono ?_
    · rw [buf_length]; unfold peerOutputSize; rw [M.pstep i hi]; rfl
    · rintro q ⟨h1, h2, h3, h4⟩
      exact ⟨by rw [h2.step, M.pstep i hi], h3, ⟨_, _, _, h1, hK⟩, h4⟩)
  obtain ⟨ts', hm, hcat⟩ := single_choose (lo := lo) (S := S) (cs := cs) (cs' := fun i => pafter 0 (q i).ctx)
    (o := fun i => (q i).out) (F := fun i ts => pmsg S i 22 0 ts [79, 75])
    (fun i hi => (hQ i hi).2.2.2)
  refine ⟨_, _, ts', by rw [hr, hcat], (hT1.after _ _).mono hts3, ?_, hm, ?_⟩
  · rw [after_step (by omega), hst, hs0]
  · intro i hi
    obtain ⟨h1, h2, ⟨K, btp, b', A, hK⟩, -⟩ := hQ i hi
    exact ⟨congrArg (· + 1) h1, h2, K, btp, b', A.steps _ _, hK⟩

/-! ## Round 8 -/

theorem round8 {b : ℕ → UInt64} {tp : TP} {cs : ℕ → PeerState} {res : List Int} {ts : ℕ → UInt64} (hS : S.Honest lo)
    (hT : TpAt S lo S.n.toNat b tp) (hs0 : tp.step = 9) (hts : Single S lo b cs ts)
    (hc : ∀ i < S.n.toNat, (cs i).step = 10) :
    ∃ tp' cs', Net.round G S.tpEnv S.env ⟨tp, (List.range S.n.toNat).map cs, cat S.n.toNat fun i =>
          pmsg S i 22 0 (ts i) [79, 75], res⟩ =
        .ok ⟨tp', (List.range S.n.toNat).map cs', [], res ++ 0 :: List.replicate S.n.toNat 0⟩ ∧
      TpAt S lo S.n.toNat ts tp' ∧ tp'.step = 10 ∧
      ∀ i < S.n.toNat, cs' i = { cs i with prev := 10, step := 11 } := by
  have hts1 := fun j hj => (hts j hj).1
  have hts2 := fun j hj => (hts j hj).2.1
  have hbuf : S.tpEnv.buf (tpOutputSize tp) = [] := by unfold tpOutputSize; rw [hs0]; rfl
  obtain ⟨s, q, hr, ⟨hT1, hkept, hout⟩, hQ⟩ := round_gen G (tp := tp) (cs := cs)
    (wire := cat S.n.toNat fun i => pmsg S i 22 0 (ts i) [79, 75]) (res := res) hS
    (by rw [hs0])
    (by rw [hbuf, hs0]; exact tp22_ok hS hT hts2 hts1)
    (Q := fun s i q => q.ctx = cs i ∧ q.out = []) (by
    rintro s ⟨hT1, hkept, hout⟩ i hi
    have hb0 : (S.env i).buf (peerOutputSize (cs i)) = [] := by unfold peerOutputSize; rw [hc i hi]; rfl
    rw [hc i hi, hb0]
    exact ⟨rfl, rfl, rfl⟩)
  have hcat : (cat S.n.toNat fun i => (q i).out) = [] := by
    have : (cat S.n.toNat fun i => (q i).out) = cat S.n.toNat fun _ => [] := cat_congr fun i hi => (hQ i hi).2
    rw [this]
    unfold cat
    simp
  refine ⟨_, _, by rw [hr, hcat], hT1.after _ _, ?_, ?_⟩
  · rw [after_step (by omega), hkept.step, hs0]
  · intro i hi
    show pafter 0 (q i).ctx = _
    rw [(hQ i hi).1]
    unfold pafter
    rw [hc i hi]
    rfl

end Verif.TpDkg.Honest
