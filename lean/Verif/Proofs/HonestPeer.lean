import Verif.Proofs.HonestTp
import Verif.Proofs.HonestNoise
import Verif.Proofs.PeerNext
import Verif.Proofs.PeerStep

/-!
# The peers in a run in which all parties follow the protocol
-/

set_option linter.unusedSectionVars false

namespace Verif.TpDkg.Honest

open H Wire Spec.Wire

/-- What is known about the lists of a peer; `none` is no information. -/
structure Know where
  /-- the peer has its index and its keys -/
  me : Bool
  /-- the number of known signing keys -/
  keys : ℕ
  /-- the numbers of known peers and of sessions of the device -/
  dev : Option (ℕ × ℕ)
  outs : ℕ → Option Noise.Session
  ins : ℕ → Option Noise.Session
  shares : ℕ → Option Share
  xshares : ℕ → Option Share
  comm : ℕ → Option (List B32)

/-- `F` below `m` and `f` from `m` on. -/
def upto {α : Type} (m : ℕ) (F : ℕ → α) (f : ℕ → Option α) (j : ℕ) : Option α := if j < m then some (F j) else f j

theorem upto_zero {α : Type} (F : ℕ → α) (f : ℕ → Option α) : upto 0 F f = f := by
  funext j
  simp [upto]

theorem upto_lt {α : Type} {m j : ℕ} {F : ℕ → α} {f : ℕ → Option α} (h : j < m) : upto m F f j = some (F j) := by
  simp [upto, h]

/-- The list entries grow with the loop. -/
theorem upto_set {α β : Type} {n m : ℕ} {F : ℕ → α} {f : ℕ → Option α} {l : List β} {g : α → β} (hm : m < l.length)
    (h : ∀ j < n, ∀ x, upto m F f j = some x → l[j]? = some (g x)) :
    ∀ j < n, ∀ x, upto (m + 1) F f j = some x → (l.set m (g (F m)))[j]? = some (g x) := by
  intro j hj x hx
  rw [List.getElem?_set]
  unfold upto at hx
  split
  · rename_i e
    subst e
    rw [if_pos (by omega)] at hx
    cases hx
    simp [hm]
  · rename_i e
    apply h j hj
    unfold upto
    split
    · rwa [if_pos (by omega)] at hx
    · rwa [if_neg (by omega)] at hx

variable [Signing] [Hashes] [NoiseCrypto]

/-- The context of peer `i`: no complaint is known, and messages with time stamps from `btp` and `b j` on are accepted. -/
structure PAt (S : Setup) (lo i : ℕ) (btp : UInt64) (b : ℕ → UInt64) (K : Know) (c : PeerState) : Prop where
  n : c.n = S.n
  t : c.t = S.t
  sid : c.sid = S.sid
  eps : c.eps = S.eps
  tpPk : c.tpSigPk = Signing.pkOf S.seed
  lastTs_len : c.lastTs.length = S.n.toNat
  sigPks_len : c.sigPks.length = S.n.toNat
  noisePks_len : c.noisePks.length = S.n.toNat
  outs_len : c.outs.length = S.n.toNat
  ins_len : c.ins.length = S.n.toNat
  shares_len : c.shares.length = S.n.toNat
  xshares_len : c.xshares.length = S.n.toNat
  comm_len : c.commitments.length = S.n.toNat * S.t.toNat
  complaintsLen : c.complaintsLen = 0
  myLen : c.myLen = 0
  tpFresh : Fresh lo c.tpLastTs btp
  fresh : ∀ j < S.n.toNat, ∀ l, c.lastTs[j]? = some l → Fresh lo l (b j)
  me : K.me = true → c.index = idx i ∧ c.sigSk = Signing.skOf (S.env i).rnd.seed ∧ c.noiseSk = (S.env i).rnd.noiseSk
  keys : ∀ j < K.keys, c.sigPks[j]? = some (Signing.pkOf (S.env j).rnd.seed)
  dev : ∀ p, K.dev = some p → ∃ dv, c.dev = .live dv ∧ DevAt S i p.1 p.2 dv
  outs : ∀ j < S.n.toNat, ∀ x, K.outs j = some x → c.outs[j]? = some (.live x)
  ins : ∀ j < S.n.toNat, ∀ x, K.ins j = some x → c.ins[j]? = some (.live x)
  shares : ∀ j < S.n.toNat, ∀ x, K.shares j = some x → c.shares[j]? = some x
  xshares : ∀ j < S.n.toNat, ∀ x, K.xshares j = some x → c.xshares[j]? = some x
  comm : ∀ j < S.n.toNat, ∀ x, K.comm j = some x → slice c.commitments (j * S.t.toNat) S.t.toNat = x

/-- What the loops of the steps leave unchanged. -/
structure PKept (c c' : PeerState) : Prop where
  step : c'.step = c.step
  transcript : c'.transcript = c.transcript
  ticks : c.ticks ≤ c'.ticks

theorem PKept.refl (c : PeerState) : PKept c c := ⟨rfl, rfl, le_refl _⟩

section
variable {S : Setup} {lo i : ℕ} {btp : UInt64} {b : ℕ → UInt64} {K : Know} {c : PeerState}

theorem PAt.mono {btp' : UInt64} {b' : ℕ → UInt64} (A : PAt S lo i btp b K c) (h : btp ≤ btp')
    (h' : ∀ j < S.n.toNat, b j ≤ b' j) : PAt S lo i btp' b' K c :=
  { A with
    tpFresh := A.tpFresh.mono h
    fresh := fun j hj l hl => (A.fresh j hj l hl).mono (h' j hj) }

theorem PAt.tick (A : PAt S lo i btp b K c) (k : ℕ) : PAt S lo i btp b K { c with ticks := k } := { A with }

theorem PAt.transcript (A : PAt S lo i btp b K c) (x : Bytes) : PAt S lo i btp b K { c with transcript := x } := { A with }

theorem PAt.steps (A : PAt S lo i btp b K c) (k l : ℕ) : PAt S lo i btp b K { c with prev := k, step := l } := { A with }

theorem fresh_set {n j : ℕ} {l : List UInt64} (h : ∀ j < n, ∀ x, l[j]? = some x → Fresh lo x (b j)) (hl : lo ≤ (b j).toNat) :
    ∀ i < n, ∀ x, (l.set j (b j))[i]? = some x → Fresh lo x (b i) := by
  intro i hi x hx
  rw [List.getElem?_set] at hx
  split at hx
  · rename_i e
    subst e
    split at hx
    · cases hx
      exact Fresh.refl hl
    · cases hx
  · exact h i hi x hx

theorem PAt.received (A : PAt S lo i btp b K c) {j k : ℕ} (hl : lo ≤ (b j).toNat) :
    PAt S lo i btp b K (Peer.received c j (b j) k) :=
  { A with
    lastTs_len := by simp [Peer.received, A.lastTs_len]
    fresh := fresh_set A.fresh hl }

theorem PAt.receivedTp (A : PAt S lo i btp b K c) {k : ℕ} (hl : lo ≤ btp.toNat) :
    PAt S lo i btp b K (Peer.receivedTp c btp k) := { A with tpFresh := Fresh.refl hl }

theorem PAt.key (A : PAt S lo i btp b K c) {j : ℕ} (hj : j < K.keys) (hj' : j < c.sigPks.length) :
    c.sigPks[j] = Signing.pkOf (S.env j).rnd.seed := by
  have := A.keys j hj
  rw [List.getElem?_eq_getElem hj'] at this
  exact Option.some.inj this

theorem p_win (hS : S.Honest lo) (hi : i < S.n.toNat) (k : ℕ) : InWin lo S.eps ((S.env i).clock k) :=
  ⟨(hS.clock i hi).lo_le k, (hS.clock i hi).le_hi k⟩

/-- The reception of a message of a peer. -/
theorem PAt.recv (hS : S.Honest lo) (hi : i < S.n.toNat) (A : PAt S lo i btp b K c) {input : Bytes} {off len j k a : ℕ}
    {msgno rcp : UInt8} {pk : B32} {body : Bytes} {r : Int} {last : UInt64} (hj : j < S.n.toNat) (hjl : j < c.lastTs.length)
    (hw : InWin lo S.eps (b j)) (hl : len = 111 + body.length) (hl2 : len < 2 ^ 32) (hb : off + len ≤ input.length)
    (hm : slice input off len = pmsg S j msgno rcp (b j) body) (hpk : pk = Signing.pkOf (S.env j).rnd.seed)
    (hr : recvMsg ((S.env i).clock a) input off len msgno (idx j) rcp pk c.sid c.eps c.lastTs[j] = .ok (r, last, k)) :
    r = 0 ∧ last = b j := by
  obtain ⟨k', _, h⟩ := recvMsg_ok (now := (S.env i).clock a) (last := c.lastTs[j]) hS.window hS.no_wrap
    (p_win hS hi _) hw (A.fresh j hj _ (List.getElem?_eq_getElem hjl)) hl hl2 hb hm hpk
  rw [A.sid, A.eps, h] at hr
  cases hr
  exact ⟨rfl, rfl⟩

/-- The reception of a message of the trusted party. -/
theorem PAt.recvTp (hS : S.Honest lo) (hi : i < S.n.toNat) (A : PAt S lo i btp b K c) {input : Bytes} {k a : ℕ}
    {msgno rcp : UInt8} {body : Bytes} {r : Int} {last : UInt64}
    (hw : InWin lo S.eps btp) (hl2 : input.length < 2 ^ 32) (hm : input = tmsg S msgno rcp btp body)
    (hr : recvMsg ((S.env i).clock a) input 0 input.length msgno 0 rcp c.tpSigPk c.sid c.eps c.tpLastTs = .ok (r, last, k)) :
    r = 0 ∧ last = btp := by
  obtain ⟨k', _, h⟩ := recvMsg_ok (now := (S.env i).clock a) (last := c.tpLastTs) (buf := input) (off := 0)
    (len := input.length) (seed := S.seed) (sid := S.sid) (msgno := msgno) (frm := 0) (rcp := rcp) (body := body)
    hS.window hS.no_wrap (p_win hS hi _) hw A.tpFresh (by rw [hm]; exact smsg_length) hl2 (by omega)
    (by rw [slice_all]; exact hm) A.tpPk
  rw [A.sid, A.eps, h] at hr
  cases hr
  exact ⟨rfl, rfl⟩

theorem header_eq {msgno rcp : UInt8} {ts : UInt64} {len : ℕ} {body : Bytes} (A : PAt S lo i btp b K c) (hme : K.me = true)
    (hl : len = 111 + body.length) : Peer.header c ts len msgno rcp ++ body = pmsg S i msgno rcp ts body := by
  obtain ⟨h1, h2, _⟩ := A.me hme
  unfold Peer.header pmsg
  rw [A.sid, h1]
  exact smsg_eq h2 hl

end

/-- A message written to the output buffer in two parts. -/
theorem put_msg' {out hd m : Bytes} {a sz : ℕ} (hh : hd.length = 111) (hm : 111 + m.length = sz)
    (ho : a + sz ≤ out.length) :
    (splice (splice out (a + 111) m) a hd).take (a + sz) = out.take a ++ (hd ++ m) ∧
      (splice (splice out (a + 111) m) a hd).length = out.length := by
  have e1 : (splice out (a + 111) m).length = out.length := splice_length (by omega)
  have e2 : (splice (splice out (a + 111) m) a hd).length = out.length := by
    rw [splice_length (by rw [e1]; omega), e1]
  refine ⟨?_, e2⟩
  have e4 : (splice out (a + 111) m).drop (a + hd.length) = m ++ out.drop (a + 111 + m.length) := by
    unfold splice
    rw [List.append_assoc, hh]
    exact List.drop_left' (by simp; omega)
  have e5 : (splice out (a + 111) m).take a = out.take a := by
    unfold splice
    rw [List.append_assoc, List.take_append_of_le_length (by simp; omega), List.take_take, Nat.min_eq_left (by omega)]
  have e6 : splice (splice out (a + 111) m) a hd = (out.take a ++ (hd ++ m)) ++ out.drop (a + 111 + m.length) := by
    generalize splice out (a + 111) m = w at e4 e5
    unfold splice
    rw [e4, e5]
    simp only [List.append_assoc]
  rw [e6]
  exact List.take_left' (by simp; omega)

theorem put_msg {out hd m : Bytes} {i sz : ℕ} (hh : hd.length = 111) (hm : 111 + m.length = sz)
    (ho : i * sz + sz ≤ out.length) :
    (splice (splice out (i * sz + 111) m) (i * sz) hd).take ((i + 1) * sz) = out.take (i * sz) ++ (hd ++ m) ∧
      (splice (splice out (i * sz + 111) m) (i * sz) hd).length = out.length := by
  have e3 : (i + 1) * sz = i * sz + sz := by ring
  rw [e3]
  exact put_msg' hh hm ho

/-- Two parts of a message. -/
theorem splice_two {out x y : Bytes} {a k : ℕ} (hx : x.length = k) (h : a + k + y.length ≤ out.length) :
    splice (splice out a x) (a + k) y = splice out a (x ++ y) := by
  subst hx
  unfold splice
  have l0 : (out.take a ++ x).length = a + x.length := by simp; omega
  rw [List.take_left' l0, List.drop_append, List.drop_of_length_le (by rw [l0]; omega), List.nil_append, l0, List.drop_drop,
    List.length_append]
  simp only [List.append_assoc]
  congr 4
  omega

/-- No UB, no early return, result 0 and `Q`. -/
def PGood (m : H PRun Int) (Q : PRun → Prop) (s : PRun) : Prop :=
  Wp m False (fun _ _ => False) (fun r s' => r = 0 ∧ Q s') s

variable {S : Setup} {lo i : ℕ} {btp : UInt64} {b : ℕ → UInt64} {K : Know} {c : PeerState} {log : Bool}

theorem p_mono (hS : S.Honest lo) (hi : i < S.n.toNat) {x y : ℕ} (h : x ≤ y) : (S.env i).clock x ≤ (S.env i).clock y :=
  (hS.clock i hi).mono x y h

theorem keys_inj (hS : S.Honest lo) {m : ℕ} (hm : m ≤ S.n.toNat) : ∀ a < m, ∀ b < m, npk S a = npk S b → a = b :=
  fun a ha b hb h => hS.keys a (by omega) b (by omega) h

theorem idx_toNat (hS : S.Honest lo) (hi : i < S.n.toNat) : (idx i).toNat = i + 1 := by
  have := hS.n_le
  unfold idx
  rw [UInt8.toNat_ofNat', Nat.mod_eq_of_lt (by omega)]

section Loop
variable [Mac] {rnd : Rnd}

/-! ## Step 2 -/

theorem tmsg_rcp (msgno rcp : UInt8) (ts : UInt64) (body : Bytes) : (tmsg S msgno rcp ts body).getD 70 0 = rcp := by
  unfold tmsg smsg encode Header.encode
  simp [List.getElem?_append, beBytes]

theorem step23_ok {out : Bytes} {tt : UInt64} (hS : S.Honest lo) (hi : i < S.n.toNat) (A : PAt S lo i btp b K c)
    (hb : btp ≤ tt) (hw : InWin lo S.eps tt) (hlt : c.ltSk = Signing.skOf (S.lt i)) (ho : out.length = 239) :
    PGood (Peer.step23 (S.env i).clock log (S.env i).rnd (tmsg S 1 (idx i) tt []))
      (fun s => PAt S lo i tt b { K with me := true } s.ctx ∧ PKept c s.ctx ∧ ∃ ts, InWin lo S.eps ts ∧
        (S.env i).clock c.ticks ≤ ts ∧ ts ≤ (S.env i).clock s.ctx.ticks ∧
        s.out = msg2 S i ts ++ (Signing.sign (Signing.skOf (S.lt i)) (msg2 S i ts)).toList)
      ⟨c, out⟩ := by
  have A' := A.mono hb fun j _ => UInt64.le_refl (b j)
  have hin : (tmsg S 1 (idx i) tt []).length = 111 := by rw [tmsg_length]; rfl
  have hx := idx_toNat hS hi
  have hn := hS.n_le
  have key : ∀ r last k, recvMsg ((S.env i).clock c.ticks) (tmsg S 1 (idx i) tt []) 0 111 1 0
      ((tmsg S 1 (idx i) tt []).getD 70 0) c.tpSigPk c.sid c.eps c.tpLastTs = .ok (r, last, k) → r = 0 ∧ last = tt := by
    intro r last k hr
    rw [tmsg_rcp] at hr
    exact A'.recvTp hS hi hw (input := tmsg S 1 (idx i) tt []) (body := []) (by rw [hin]; norm_num) rfl
      (by rw [hin]; exact hr)
  unfold PGood
  refine Peer.wp_step23 hin ho ?_ ?_ ?_
  · intro r last k hr h0
    exact h0 (key r last k hr).1
  · intro last k hr h0
    rw [tmsg_rcp, hx] at h0
    omega
  · intro last k hr _ _
    obtain ⟨-, rfl⟩ := key 0 last k hr
    refine ⟨rfl, ?_, ?_, (S.env i).clock (c.ticks + k), p_win hS hi _, p_mono hS hi (by omega), ?_, ?_⟩
    · rw [tmsg_rcp]
      exact { A' with
        tpFresh := Fresh.refl hw.1
        me := fun _ => ⟨rfl, rfl, rfl⟩ }
    · exact ⟨rfl, rfl, by show _ ≤ c.ticks + k + 1; omega⟩
    · exact p_mono hS hi (by show _ ≤ c.ticks + k + 1; omega)
    · dsimp only
      rw [hlt, tmsg_rcp]
      have : Peer.msg2 (Peer.ctx23 c (S.env i).rnd (idx i) last k) ((S.env i).clock (c.ticks + k)) =
          msg2 S i ((S.env i).clock (c.ticks + k)) := by
        unfold Peer.msg2 msg2 pmsg smsg
        rw [body2_length]
        show encode (Signing.sign _ (Header.mk 2 175 (idx i) 0xff _ c.sid).encode) ⟨2, 175, idx i, 0xff, _, c.sid⟩ _ = _
        rw [A.sid]
        rfl
      rw [this]

/-! ## Steps with an answer to every peer -/

/-- The first `j` answers, with increasing time stamps from `x` on. -/
def Sent (S : Setup) (lo i : ℕ) (x : UInt64) (sz len : ℕ) (f : ℕ → UInt64 → Bytes) (j : ℕ) (s : PRun) : Prop :=
  s.out.length = len ∧ ∃ ts, Chain lo S.eps x j ts ((S.env i).clock s.ctx.ticks) ∧
    s.out.take (j * sz) = cat j (fun k => f k (ts k))

theorem Sent.nil {x : UInt64} {sz len : ℕ} {f : ℕ → UInt64 → Bytes} {s : PRun} (hS : S.Honest lo) (hi : i < S.n.toNat)
    (h : x ≤ (S.env i).clock s.ctx.ticks) (hl : s.out.length = len) : Sent S lo i x sz len f 0 s :=
  ⟨hl, fun _ => (S.env i).clock s.ctx.ticks, ⟨h, fun _ h => absurd h (by omega), rfl, fun _ _ => p_win hS hi _⟩,
    by simp [cat]⟩

theorem Sent.snoc {x : UInt64} {sz len : ℕ} {f : ℕ → UInt64 → Bytes} {j k : ℕ} {s s' : PRun} (hS : S.Honest lo)
    (hi : i < S.n.toNat) (h : Sent S lo i x sz len f j s) (ht : s'.ctx.ticks = s.ctx.ticks + k + 1)
    (hl : s'.out.length = s.out.length)
    (ho : s'.out.take ((j + 1) * sz) = s.out.take (j * sz) ++ f j ((S.env i).clock (s.ctx.ticks + k))) :
    Sent S lo i x sz len f (j + 1) s' := by
  obtain ⟨h1, ts, h2, h3⟩ := h
  refine ⟨hl.trans h1, _, h2.snoc (z := (S.env i).clock (s.ctx.ticks + k)) (p_mono hS hi (by omega))
    (p_mono hS hi (by omega)) (p_win hS hi _) (p_win hS hi _), ?_⟩
  rw [ho, h3, cat_succ, if_neg (by omega), if_pos rfl]
  congr 1
  apply cat_congr
  intro k hk
  rw [if_pos hk]

theorem Sent.all {x : UInt64} {sz len n : ℕ} {f : ℕ → UInt64 → Bytes} {s : PRun} (h : Sent S lo i x sz len f n s)
    (hl : len = n * sz) :
    ∃ ts, Chain lo S.eps x n ts ((S.env i).clock s.ctx.ticks) ∧ s.out = cat n (fun k => f k (ts k)) := by
  obtain ⟨h1, ts, h2, h3⟩ := h
  rw [List.take_of_length_le (by omega)] at h3
  exact ⟨ts, h2, h3⟩

/-! ### Step 5 -/

theorem step5_ok {out : Bytes} {tt : UInt64} {ts : ℕ → UInt64} (hS : S.Honest lo) (hi : i < S.n.toNat)
    (A : PAt S lo i btp b K c) (hme : K.me = true) (hb : btp ≤ tt) (hw : InWin lo S.eps tt)
    (hb' : ∀ j < S.n.toNat, b j ≤ ts j) (hw' : ∀ j < S.n.toNat, InWin lo S.eps (ts j)) (ho : out.length = 159 * S.n.toNat) :
    PGood (Peer.step5 (S.env i).clock log (S.env i).rnd (tmsg S 3 0xff tt (cat S.n.toNat fun j => msg2 S j (ts j))))
      (fun s => PAt S lo i tt ts { K with
          keys := S.n.toNat
          dev := some (S.n.toNat, S.n.toNat)
          outs := upto S.n.toNat (fun j => (link S i j).i1) K.outs } s.ctx ∧
        s.ctx.step = c.step ∧
        s.ctx.transcript = updateTranscript c.transcript (tmsg S 3 0xff tt (cat S.n.toNat fun j => msg2 S j (ts j))) ∧
        ∃ ts', Chain lo S.eps ((S.env i).clock c.ticks) S.n.toNat ts' ((S.env i).clock s.ctx.ticks) ∧
          s.out = cat S.n.toNat fun j => pmsg S i 4 (idx j) (ts' j) (link S i j).m1)
      ⟨c, out⟩ := by
  obtain ⟨hn3, hn128⟩ := n_lt hS
  have hg : ∀ j < S.n.toNat, (msg2 S j (ts j)).length = 175 := fun j _ => msg2_length j _
  have hcl : (cat S.n.toNat fun j => msg2 S j (ts j)).length = S.n.toNat * 175 := cat_length hg
  set body := cat S.n.toNat fun j => msg2 S j (ts j) with hbody
  set input := tmsg S 3 0xff tt body with hinput
  have hil : input.length = 111 + S.n.toNat * 175 := by rw [hinput, tmsg_length, hcl]
  have A' := A.mono hb hb'
  have key : ∀ r last k, recvMsg ((S.env i).clock c.ticks) input 0 input.length 3 0 0xff c.tpSigPk c.sid c.eps
      c.tpLastTs = .ok (r, last, k) → r = 0 ∧ last = tt :=
    fun r last k hr => A'.recvTp hS hi hw (by rw [hil]; omega) rfl hr
  unfold PGood
  refine Peer.wp_step5 (n := S.n.toNat) (by rw [A.n]) (by omega) ho (fun j s =>
    PAt S lo i tt ts { K with
      keys := j
      dev := some (j, j)
      outs := upto j (fun j => (link S i j).i1) K.outs } s.ctx ∧
    s.ctx.step = c.step ∧ s.ctx.transcript = updateTranscript c.transcript input ∧
    Sent S lo i ((S.env i).clock c.ticks) 159 (S.n.toNat * 159)
      (fun j ts => pmsg S i 4 (idx j) ts (link S i j).m1) j s) ?_ ?_ ?_ ?_
  · intro r last k hr h0
    exact h0 (key r last k hr).1
  · intro last k hr
    obtain ⟨-, rfl⟩ := key 0 last k hr
    refine ⟨?_, rfl, rfl, Sent.nil hS hi (p_mono hS hi (Nat.le_add_right _ _)) (by dsimp only; omega)⟩
    have := A'.receivedTp (k := k) hw.1
    exact { this with
      keys := fun j hj => absurd hj (by simp)
      dev := by
        intro p hp
        cases hp
        refine ⟨_, rfl, ?_⟩
        dsimp only
        rw [(A.me hme).2.2]
        exact DevAt.create S i
      outs := by rw [upto_zero]; exact A.outs }
  · rintro j s hj ⟨B, h1, h2, h3⟩
    have hle := le_mul (sz := 175) hj
    have hle2 := le_mul (sz := 159) hj
    obtain ⟨dv, hdv, D⟩ := B.dev (j, j) rfl
    have hm : slice input (111 + j * 175) 175 = msg2 S j (ts j) := by
      have e := slice_cat_sub (a := 0) (l := 175) hg hj (by omega)
      rw [Nat.add_zero] at e
      have e2 := slice_smsg (buf := input) (off := 0) (len := input.length) (a := j * 175) (k := 175)
        (by rw [slice_all]; rfl) (by rw [hil]; omega)
      rw [Nat.zero_add] at e2
      rw [e2, e]
      unfold slice
      rw [List.drop_zero, List.take_of_length_le (by rw [msg2_length])]
    have hpk : Peer.pk2 input j = Signing.pkOf (S.env j).rnd.seed := by
      unfold Peer.pk2
      rw [show 111 + j * 175 + 111 = 111 + j * 175 + (111 + 0) from rfl, slice_smsg hm (by omega)]
      simp [slice, body2, toB32_toList]
    have hnpk : Peer.npk2 input j = npk S j := by
      unfold Peer.npk2
      rw [show 111 + j * 175 + 111 + 32 = 111 + j * 175 + (111 + 32) from rfl, slice_smsg hm (by omega)]
      simp [slice, body2, npk]
      rw [List.take_of_length_le (by simp), toB32_toList]
    have hts : j < s.ctx.lastTs.length := by rw [B.lastTs_len]; exact hj
    have kr : ∀ r last k, recvMsg ((S.env i).clock s.ctx.ticks) input (111 + j * 175) 175 2 (idx j) 0xff
        (Peer.pk2 input j) s.ctx.sid s.ctx.eps s.ctx.lastTs[j] = .ok (r, last, k) → r = 0 ∧ last = ts j :=
      fun r last k hr => B.recv hS hi hj hts (hw' j hj) (body := body2 S j) (by rw [body2_length]) (by omega) (by omega) hm hpk hr
    refine Peer.wp_step5Body (dv := dv) (by omega) (by rw [h3.1]; omega) hts (by rw [B.sigPks_len]; exact hj)
      (by rw [B.noisePks_len]; exact hj) (by rw [B.outs_len]; exact hj) hdv ?_ ?_
    · intro r last k hr h0
      exact h0 (kr r last k hr).1
    · intro last k hr
      obtain ⟨-, rfl⟩ := kr 0 last k hr
      obtain ⟨dv', e, D'⟩ := D.init (by omega) (by omega) (keys_inj hS (m := j + 1) hj)
        (s.ctx.outs[j]'(by rw [B.outs_len]; exact hj))
      have B' := B.received (j := j) (k := k) (hw' j hj).1
      unfold Peer.after5
      simp only [hnpk, hpk, e]
      have hml : (link S i j).m1.length = 48 := (link_of S i j).l1
      obtain ⟨p1, p2⟩ := put_msg (out := s.out) (i := j) (sz := 159) (m := (link S i j).m1)
        (Peer.header_length s.ctx ((S.env i).clock (s.ctx.ticks + k)) 159 4 (idx j)) (by rw [hml]) (by rw [h3.1]; omega)
      refine ⟨?_, h1, h2, h3.snoc (k := k) hS hi rfl p2 ?_⟩
      · exact { B' with
          sigPks_len := by simp; exact B.sigPks_len
          noisePks_len := by simp; exact B.noisePks_len
          outs_len := by simp; exact B.outs_len
          keys := by
            intro a ha
            dsimp only at ha ⊢
            rw [List.getElem?_set]
            split
            · rename_i e
              subst e
              rw [if_pos (by rw [B.sigPks_len]; exact hj)]
            · exact B.keys a (by dsimp only; omega)
          dev := by
            intro p hp
            cases hp
            exact ⟨_, rfl, D'⟩
          outs := upto_set (by rw [B.outs_len]; exact hj) B.outs }
      · show List.take _ (splice (splice s.out _ _) _ _) = _
        rw [p1, header_eq B hme (by rw [hml])]
  · rintro s ⟨B, h1, h2, h3⟩
    exact ⟨rfl, B, h1, h2, h3.all rfl⟩

/-! ### Steps 7 and 9 -/

theorem step7_ok {out : Bytes} {ts : ℕ → UInt64} (hS : S.Honest lo) (hi : i < S.n.toNat)
    (A : PAt S lo i btp b K c) (hme : K.me = true) (hkeys : K.keys = S.n.toNat)
    (hdev : K.dev = some (S.n.toNat, S.n.toNat))
    (hb' : ∀ j < S.n.toNat, b j ≤ ts j) (hw' : ∀ j < S.n.toNat, InWin lo S.eps (ts j)) (ho : out.length = 159 * S.n.toNat) :
    PGood (Peer.step7 (S.env i).clock log (S.env i).rnd
        (cat S.n.toNat fun j => pmsg S j 4 (idx i) (ts j) (link S j i).m1))
      (fun s => PAt S lo i btp ts { K with
          dev := some (S.n.toNat, 2 * S.n.toNat)
          ins := upto S.n.toNat (fun j => (link S j i).r2) K.ins } s.ctx ∧ PKept c s.ctx ∧
        ∃ ts', Chain lo S.eps ((S.env i).clock c.ticks) S.n.toNat ts' ((S.env i).clock s.ctx.ticks) ∧
          s.out = cat S.n.toNat fun j => pmsg S i 5 (idx j) (ts' j) (link S j i).m2)
      ⟨c, out⟩ := by
  obtain ⟨hn3, hn128⟩ := n_lt hS
  have hg : ∀ j < S.n.toNat, (pmsg S j 4 (idx i) (ts j) (link S j i).m1).length = 159 :=
    fun j _ => by rw [pmsg_length, (link_of S j i).l1]
  have hil := cat_length hg
  set input := cat S.n.toNat fun j => pmsg S j 4 (idx i) (ts j) (link S j i).m1 with hinput
  have A' := A.mono (UInt64.le_refl btp) hb'
  unfold PGood
  refine Peer.wp_step7 (n := S.n.toNat) (by rw [A.n]) (by omega) ho (fun j s =>
    PAt S lo i btp ts { K with
      dev := some (S.n.toNat, S.n.toNat + j)
      ins := upto j (fun j => (link S j i).r2) K.ins } s.ctx ∧ PKept c s.ctx ∧
    Sent S lo i ((S.env i).clock c.ticks) 159 (S.n.toNat * 159)
      (fun j ts => pmsg S i 5 (idx j) ts (link S j i).m2) j s) ?_ ?_ ?_
  · refine ⟨?_, PKept.refl c, Sent.nil hS hi (UInt64.le_refl _) (by dsimp only; omega)⟩
    exact { A' with
      dev := by rw [Nat.add_zero, ← hdev]; exact A.dev
      ins := by rw [upto_zero]; exact A.ins }
  · rintro j s hj ⟨B, h1, h3⟩
    have hle := le_mul (sz := 159) hj
    obtain ⟨dv, hdv, D⟩ := B.dev _ rfl
    have hm : slice input (j * 159) 159 = pmsg S j 4 (idx i) (ts j) (link S j i).m1 := slice_cat hg hj
    have hhs : Peer.hsMsg input j = (link S j i).m1 := by
      unfold Peer.hsMsg
      rw [show j * 159 + 111 = j * 159 + (111 + 0) from rfl, slice_smsg hm (by omega)]
      unfold slice
      rw [List.drop_zero, List.take_of_length_le (by rw [(link_of S j i).l1])]
    have hts : j < s.ctx.lastTs.length := by rw [B.lastTs_len]; exact hj
    have hpkl : j < s.ctx.sigPks.length := by rw [B.sigPks_len]; exact hj
    have kr : ∀ r last k, recvMsg ((S.env i).clock s.ctx.ticks) input (j * 159) 159 4 (idx j) s.ctx.index
        s.ctx.sigPks[j] s.ctx.sid s.ctx.eps s.ctx.lastTs[j] = .ok (r, last, k) → r = 0 ∧ last = ts j := by
      intro r last k hr
      rw [(B.me hme).1] at hr
      exact B.recv hS hi hj hts (hw' j hj) (body := (link S j i).m1) (by rw [(link_of S j i).l1]) (by omega) (by omega) hm
        (B.key (by dsimp only; omega) hpkl) hr
    refine Peer.wp_step7Body (dv := dv) (by omega) (by rw [h3.1]; omega) hts hpkl (by rw [B.ins_len]; exact hj) hdv ?_ ?_
    · intro r last k hr h0
      exact h0 (kr r last k hr).1
    · intro last k hr
      obtain ⟨-, rfl⟩ := kr 0 last k hr
      obtain ⟨dv', e, D'⟩ := D.respond (by dsimp only; omega) j
      have B' := B.received (j := j) (k := k) (hw' j hj).1
      unfold Peer.after7
      simp only [hhs, e]
      have hml : (link S j i).m2.length = 48 := (link_of S j i).l2
      obtain ⟨p1, p2⟩ := put_msg (out := s.out) (i := j) (sz := 159) (m := (link S j i).m2)
        (Peer.header_length s.ctx ((S.env i).clock (s.ctx.ticks + k)) 159 5 (idx j)) (by rw [hml]) (by rw [h3.1]; omega)
      refine ⟨?_, ⟨h1.step, h1.transcript, ?_⟩, h3.snoc (k := k) hS hi rfl p2 ?_⟩
      · exact { B' with
          ins_len := by simp; exact B.ins_len
          dev := by
            intro p hp
            cases hp
            exact ⟨_, rfl, D'⟩
          ins := upto_set (by rw [B.ins_len]; exact hj) B.ins }
      · exact le_trans h1.ticks (by dsimp only; omega)
      · show List.take _ (splice (splice s.out _ _) _ _) = _
        rw [p1, header_eq B hme (by rw [hml])]
  · rintro s ⟨B, h1, h3⟩
    rw [← Nat.two_mul] at B
    exact ⟨rfl, B, h1, h3.all rfl⟩

end Loop

/-- The commitments of peer `j`. -/
noncomputable def commits (G : Type) [Ristretto G] (S : Setup) (j : ℕ) : List B32 :=
  (List.range S.t.toNat).map fun k => Ristretto.enc (Ristretto.maskedVal ((S.env j).rnd.coeff k) • (Ristretto.base : G))

/-- The share of peer `j` for peer `i`. -/
noncomputable def dealtTo (S : Setup) (j i : ℕ) : Share := Dkg.dealt S.t.toNat (S.env j).rnd.coeff (idx i)

section Deal
variable [Mac] (G : Type) [Ristretto G]

theorem step911_ok {out : Bytes} {ts : ℕ → UInt64} (hS : S.Honest lo) (hi : i < S.n.toNat)
    (A : PAt S lo i btp b K c) (hme : K.me = true) (hkeys : K.keys = S.n.toNat)
    {m : ℕ} (hdev : K.dev = some (S.n.toNat, m)) (houts : ∀ j < S.n.toNat, K.outs j = some (link S i j).i1)
    (hb' : ∀ j < S.n.toNat, b j ≤ ts j) (hw' : ∀ j < S.n.toNat, InWin lo S.eps (ts j))
    (ho : out.length = 111 + 32 * S.t.toNat) :
    PGood (Peer.step911 G (S.env i).clock log (S.env i).mlock (S.env i).rnd
        (cat S.n.toNat fun j => pmsg S j 5 (idx i) (ts j) (link S i j).m2))
      (fun s => PAt S lo i btp ts { K with
          outs := upto S.n.toNat (fun j => (link S i j).i2) K.outs
          shares := fun j => some (dealtTo S i j) } s.ctx ∧ PKept c s.ctx ∧
        ∃ tt, InWin lo S.eps tt ∧ (S.env i).clock c.ticks ≤ tt ∧ tt ≤ (S.env i).clock s.ctx.ticks ∧
          s.out = pmsg S i 6 0xff tt (Peer.flat (commits G S i)))
      ⟨c, out⟩ := by
  obtain ⟨hn3, hn128⟩ := n_lt hS
  have hg : ∀ j < S.n.toNat, (pmsg S j 5 (idx i) (ts j) (link S i j).m2).length = 159 :=
    fun j _ => by rw [pmsg_length, (link_of S i j).l2]
  have hil := cat_length hg
  set input := cat S.n.toNat fun j => pmsg S j 5 (idx i) (ts j) (link S i j).m2 with hinput
  have A' := A.mono (UInt64.le_refl btp) hb'
  unfold PGood
  refine Peer.wp_step911 G (n := S.n.toNat) (by rw [A.n]) (by omega) (by rw [A.t]; exact ho) (fun j s =>
    PAt S lo i btp ts { K with outs := upto j (fun j => (link S i j).i2) K.outs } s.ctx ∧ PKept c s.ctx ∧
    s.out = out) ?_ ?_ ?_ ?_
  · refine ⟨?_, PKept.refl c, rfl⟩
    exact { A' with outs := by rw [upto_zero]; exact A.outs }
  · rintro j s hj ⟨B, h1, h3⟩
    have hle := le_mul (sz := 159) hj
    obtain ⟨dv, hdv, D⟩ := B.dev _ hdev
    have hm : slice input (j * 159) 159 = pmsg S j 5 (idx i) (ts j) (link S i j).m2 := slice_cat hg hj
    have hhs : Peer.hsMsg input j = (link S i j).m2 := by
      unfold Peer.hsMsg
      rw [show j * 159 + 111 = j * 159 + (111 + 0) from rfl, slice_smsg hm (by omega)]
      unfold slice
      rw [List.drop_zero, List.take_of_length_le (by rw [(link_of S i j).l2])]
    have hts : j < s.ctx.lastTs.length := by rw [B.lastTs_len]; exact hj
    have hpkl : j < s.ctx.sigPks.length := by rw [B.sigPks_len]; exact hj
    have hol : j < s.ctx.outs.length := by rw [B.outs_len]; exact hj
    have hslot : s.ctx.outs[j] = .live (link S i j).i1 := by
      have := B.outs j hj (link S i j).i1 (by dsimp only; unfold upto; rw [if_neg (by omega)]; exact houts j hj)
      rw [List.getElem?_eq_getElem hol] at this
      exact Option.some.inj this
    have kr : ∀ r last k, recvMsg ((S.env i).clock s.ctx.ticks) input (j * 159) 159 5 (idx j) s.ctx.index
        s.ctx.sigPks[j] s.ctx.sid s.ctx.eps s.ctx.lastTs[j] = .ok (r, last, k) → r = 0 ∧ last = ts j := by
      intro r last k hr
      rw [(B.me hme).1] at hr
      exact B.recv hS hi hj hts (hw' j hj) (body := (link S i j).m2) (by rw [(link_of S i j).l2]) (by omega) (by omega) hm
        (B.key (by dsimp only; omega) hpkl) hr
    refine Peer.wp_step911Body (dv := dv) (r' := 0) (slot := .live (link S i j).i2) (by omega) hts hpkl hol hdv ?_ ?_ ?_
    · rw [hslot, hhs]
      exact D.finish (by dsimp only; omega) log hj
    · intro r last k hr h0
      exact h0 (kr r last k hr).1
    · intro last k hr
      obtain ⟨-, rfl⟩ := kr 0 last k hr
      have B' := B.received (j := j) (k := k) (hw' j hj).1
      refine ⟨?_, ⟨h1.step, h1.transcript, ?_⟩, h3⟩
      · exact { B' with
          outs_len := by simp [Peer.after911]; exact B.outs_len
          outs := upto_set hol B.outs }
      · exact le_trans h1.ticks (Nat.le_add_right _ _)
  · rintro s ⟨B, h1, h3⟩
    exact ⟨h3, by rw [B.n, A.n], by rw [B.t, A.t]⟩
  · rintro s ⟨B, h1, h3⟩
    have ht := hS.t_ge
    have hr := hS.coeff i hi
    have hst := Dkg.start_eq G S.n S.t (S.env i).rnd.coeff (List.replicate S.t.toNat zero32) s.ctx.shares (by omega)
      (by omega) (by simp) (by rw [B.shares_len]) (hr 0).1
    rw [List.drop_of_length_le (by simp), List.append_nil, List.drop_of_length_le (by rw [B.shares_len]),
      List.append_nil] at hst
    refine ⟨_, _, _, by rw [A.n, A.t, hS.mlock i hi]; exact hst, fun h => absurd rfl h, fun _ => ⟨rfl, ?_, ?_, ?_⟩⟩
    · exact { B with
        shares_len := by simp
        shares := by
          intro j hj x hx
          cases hx
          dsimp only
          rw [List.getElem?_map, List.getElem?_range' hj]
          simp [dealtTo, idx, Nat.add_comm] }
    · exact ⟨h1.step, h1.transcript, le_trans h1.ticks (Nat.le_succ _)⟩
    · refine ⟨_, p_win hS hi s.ctx.ticks, p_mono hS hi h1.ticks, p_mono hS hi (Nat.le_succ _), ?_⟩
      obtain ⟨e1, e2, -⟩ := B.me hme
      have hfl : (Peer.flat (commits G S i)).length = 32 * S.t.toNat := by
        rw [Peer.flat_length]; simp [commits]
      unfold Peer.msg6 pmsg smsg
      rw [B.t, B.sid, e1, e2, hfl]
      rfl

end Deal

end Verif.TpDkg.Honest
