import Verif.Proofs.HonestWire
import Verif.Proofs.TpStep

/-!
# The trusted party in a run in which all parties follow the protocol
-/

set_option linter.unusedSectionVars false

namespace Verif.TpDkg.Honest

open H Wire Spec.Wire

variable [Signing] [Hashes] [NoiseCrypto]

/-- A message of peer `j`. -/
def pmsg (S : Setup) (j : ℕ) (msgno rcp : UInt8) (ts : UInt64) (body : Bytes) : Bytes :=
  smsg (S.env j).rnd.seed S.sid msgno (idx j) rcp ts body

/-- A message of the trusted party. -/
def tmsg (S : Setup) (msgno rcp : UInt8) (ts : UInt64) (body : Bytes) : Bytes :=
  smsg S.seed S.sid msgno 0 rcp ts body

theorem pmsg_length {S : Setup} {j : ℕ} {msgno rcp : UInt8} {ts : UInt64} {body : Bytes} :
    (pmsg S j msgno rcp ts body).length = 111 + body.length := smsg_length

theorem tmsg_length {S : Setup} {msgno rcp : UInt8} {ts : UInt64} {body : Bytes} :
    (tmsg S msgno rcp ts body).length = 111 + body.length := smsg_length

/-- The context of the trusted party: no complaint and no cheater is known, the first `m` peers' signing keys are stored, and
messages with time stamps from `b j` on are accepted from peer `j`. -/
structure TpAt (S : Setup) (lo m : ℕ) (b : ℕ → UInt64) (c : TP) : Prop where
  n : c.n = S.n
  t : c.t = S.t
  sid : c.sid = S.sid
  eps : c.eps = S.eps
  sk : c.sigSk = Signing.skOf S.seed
  lastTs : c.lastTs.length = S.n.toNat
  sigPks : c.sigPks.length = S.n.toNat
  ltPks : c.ltPks = S.ltPks
  commitments : c.commitments.length = S.n.toNat * S.t.toNat
  encShares : c.encShares.length = S.n.toNat * S.n.toNat * msg8Size
  complaintsLen : c.complaintsLen = 0
  cheaterLen : c.cheaterLen = 0
  fresh : ∀ j < S.n.toNat, ∀ l, c.lastTs[j]? = some l → Fresh lo l (b j)
  keys : ∀ j < m, c.sigPks[j]? = some (Signing.pkOf (S.env j).rnd.seed)

section
variable {S : Setup} {lo m : ℕ} {b : ℕ → UInt64} {c : TP}

theorem TpAt.mono {b' : ℕ → UInt64} (A : TpAt S lo m b c) (h : ∀ j < S.n.toNat, b j ≤ b' j) : TpAt S lo m b' c :=
  { A with fresh := fun j hj l hl => (A.fresh j hj l hl).mono (h j hj) }

theorem TpAt.tick (A : TpAt S lo m b c) (k : ℕ) : TpAt S lo m b { c with ticks := k } := ⟨A.1, A.2, A.3, A.4, A.5, A.6, A.7, A.8, A.9, A.10, A.11, A.12, A.13, A.14⟩

theorem TpAt.transcript (A : TpAt S lo m b c) (k : Bytes) : TpAt S lo m b { c with transcript := k } := ⟨A.1, A.2, A.3, A.4, A.5, A.6, A.7, A.8, A.9, A.10, A.11, A.12, A.13, A.14⟩

theorem TpAt.after (A : TpAt S lo m b c) (k : ℕ) (r : Int) : TpAt S lo m b (after k r c) := ⟨A.1, A.2, A.3, A.4, A.5, A.6, A.7, A.8, A.9, A.10, A.11, A.12, A.13, A.14⟩

theorem TpAt.received (A : TpAt S lo m b c) {j k : ℕ} (hl : lo ≤ (b j).toNat) :
    TpAt S lo m b (received c j (b j) k) := by
  refine { A with lastTs := ?_, fresh := ?_ }
  · simp [TpDkg.received, A.lastTs]
  · intro i hi l hl'
    simp only [TpDkg.received, List.getElem?_set] at hl'
    split at hl'
    · rename_i e
      subst e
      split at hl'
      · cases hl'
        exact Fresh.refl hl
      · cases hl'
    · exact A.fresh i hi l hl'

/-- The reception of a message of a peer. -/
theorem wp_tpRecv_ok {U : Prop} {E : Int → Run → Prop} {Q : Int → Run → Prop} {s : Run} {input : Bytes} {off len j : ℕ}
    {msgno rcp : UInt8} {pk : B32} {body : Bytes} (hS : S.Honest lo) (A : TpAt S lo m b s.ctx) (hj : j < S.n.toNat)
    (hw : InWin lo S.eps (b j)) (hl : len = 111 + body.length) (hl2 : len < 2 ^ 32) (hb : off + len ≤ input.length)
    (hm : slice input off len = pmsg S j msgno rcp (b j) body) (hpk : pk = Signing.pkOf (S.env j).rnd.seed)
    (hQ : ∀ k, Q 0 { s with ctx := received s.ctx j (b j) k }) :
    Wp (tpRecv S.tpEnv.clock input off len msgno (idx j) rcp pk j) U E Q s := by
  have hjl : j < s.ctx.lastTs.length := by rw [A.lastTs]; exact hj
  refine wp_tpRecv hb (by omega) hjl fun r last k hr => ?_
  obtain ⟨k', _, h⟩ := recvMsg_ok (now := S.tpEnv.clock s.ctx.ticks) (last := s.ctx.lastTs[j]) hS.window hS.no_wrap
    ⟨hS.tpClock.lo_le _, hS.tpClock.le_hi _⟩ hw (A.fresh j hj _ (List.getElem?_eq_getElem hjl)) hl hl2 hb hm hpk
  rw [A.sid, A.eps, h] at hr
  cases hr
  exact hQ _

theorem TpAt.key (A : TpAt S lo m b c) {j : ℕ} (hj : j < m) (hj' : j < c.sigPks.length) :
    c.sigPks[j] = Signing.pkOf (S.env j).rnd.seed := by
  have := A.keys j hj
  rw [List.getElem?_eq_getElem hj'] at this
  exact Option.some.inj this

end

/-- The output buffer has `len` bytes and from `base` on holds `acc`, which ends at the write pointer. -/
structure Out (len base : ℕ) (acc : Bytes) (s : Run) : Prop where
  size : s.out.length = len
  w : s.w = base + acc.length
  le : base + acc.length ≤ len
  acc : slice s.out base acc.length = acc

theorem Out.full {len base : ℕ} {acc : Bytes} {s : Run} (O : Out len base acc s) (h : base + acc.length = len) :
    s.out.drop base = acc := by
  have := O.acc
  unfold slice at this
  rwa [List.take_of_length_le (by rw [List.length_drop, O.size]; omega)] at this

theorem wp_copyOut_ok {U : Prop} {E : Int → Run → Prop} {Q : Unit → Run → Prop} {s : Run} {input m acc : Bytes}
    {off l len base : ℕ} (O : Out len base acc s) (hm : slice input off l = m) (h1 : off + l ≤ input.length)
    (h2 : base + acc.length + l ≤ len) (hQ : ∀ s', s'.ctx = s.ctx → Out len base (acc ++ m) s' → Q () s') :
    Wp (copyOut input off l) U E Q s := by
  have h3 : s.w + l ≤ s.out.length := by rw [O.w, O.size]; exact h2
  rw [wp_copyOut h1 h3]
  have hl : m.length = l := by rw [← hm]; unfold slice; simp; omega
  have hw := O.w
  have hol := O.size
  have ho := O.acc
  refine hQ _ rfl ⟨?_, ?_, ?_, ?_⟩
  · simp; omega
  · simp; omega
  · simp; omega
  · dsimp only
    show slice (s.out.take s.w ++ slice input off l ++ s.out.drop (s.w + l)) _ _ = _
    rw [hm]
    unfold slice at ho ⊢
    rw [List.append_assoc, List.drop_append_of_le_length (by simp; omega), ← List.append_assoc,
      List.take_append_of_le_length (by simp; omega), List.take_of_length_le (by simp; omega), hw, List.drop_take]
    congr 1
    rw [← ho]
    congr 1
    simp; omega

variable {S : Setup} {lo : ℕ} {b : ℕ → UInt64} {log : Bool}

theorem n_lt (hS : S.Honest lo) : 3 ≤ S.n.toNat ∧ S.n.toNat ≤ 128 := ⟨by have := hS.t_ge; have := hS.t_lt; omega, hS.n_le⟩

/-- The state after a step: no UB, no early return, result 0 and `Q`. -/
def Good (m : H Run Int) (Q : Run → Prop) (s : Run) : Prop := Wp m False (fun _ _ => False) (fun r s' => r = 0 ∧ Q s') s

variable (G : Type) [Ristretto G] [Mac]

theorem tpNext_ok {clock : ℕ → UInt64} {scratch : B32} {c : TP} {input out : Bytes} {Q : Run → Prop} (h : c.step ≤ 9)
    (hw : Good (tpHandler G clock log scratch input c.step) Q ⟨c, out, 0, 0, []⟩) :
    ∃ s, tpNext G clock log scratch c input out = .ok (0, after c.step 0 s.ctx, s.out) ∧ Q s := by
  obtain ⟨r, s, h1, h2⟩ := tpNext_total G h hw
  rcases h2 with h2 | ⟨rfl, h2⟩
  · exact h2.elim
  · exact ⟨s, h1, h2⟩

/-! ## Step 1 -/

/-- Increasing time stamps between `x` and `y`. -/
structure Chain (lo : ℕ) (eps x : UInt64) (n : ℕ) (ts : ℕ → UInt64) (y : UInt64) : Prop where
  start : x ≤ ts 0
  step : ∀ j < n, ts j ≤ ts (j + 1)
  last : ts n = y
  win : ∀ j ≤ n, InWin lo eps (ts j)

theorem Chain.zero {lo : ℕ} {eps x : UInt64} (h : InWin lo eps x) : Chain lo eps x 0 (fun _ => x) x :=
  ⟨UInt64.le_refl x, fun _ h => absurd h (by omega), rfl, fun _ _ => h⟩

/-- One more time stamp. -/
theorem Chain.snoc {lo : ℕ} {eps x y z w : UInt64} {n : ℕ} {ts : ℕ → UInt64} (h : Chain lo eps x n ts y) (h1 : y ≤ z)
    (h2 : z ≤ w) (hz : InWin lo eps z) (hw : InWin lo eps w) :
    Chain lo eps x (n + 1) (fun k => if k < n then ts k else if k = n then z else w) w := by
  refine ⟨?_, ?_, ?_, ?_⟩
  · rcases Nat.eq_zero_or_pos n with rfl | hn
    · rw [if_neg (by omega), if_pos rfl]
      exact UInt64.le_trans h.start (by rw [h.last]; exact h1)
    · rw [if_pos hn]; exact h.start
  · intro j hj
    rcases Nat.lt_or_ge j n with hjn | hjn
    · rw [if_pos hjn]
      rcases Nat.lt_or_ge (j + 1) n with hjn' | hjn'
      · rw [if_pos hjn']; exact h.step j hjn
      · rw [if_neg (by omega), if_pos (by omega)]
        have : n = j + 1 := by omega
        subst this
        exact UInt64.le_trans (h.step j (by omega)) (by rw [h.last]; exact h1)
    · rw [if_neg (by omega), if_pos (by omega), if_neg (by omega), if_neg (by omega)]
      exact h2
  · rw [if_neg (by omega), if_neg (by omega)]
  · intro j hj
    split
    · exact h.win j (by omega)
    · split
      · exact hz
      · exact hw

theorem Chain.le {lo : ℕ} {eps x y : UInt64} {n : ℕ} {ts : ℕ → UInt64} (h : Chain lo eps x n ts y) : ∀ j ≤ n, x ≤ ts j
  | 0, _ => h.start
  | j + 1, hj => UInt64.le_trans (h.le j (by omega)) (h.step j (by omega))

theorem Chain.ge {lo : ℕ} {eps x y : UInt64} {n : ℕ} {ts : ℕ → UInt64} (h : Chain lo eps x n ts y) (j : ℕ) (hj : j ≤ n) :
    ts j ≤ y := by
  have : ∀ m, j + m ≤ n → ts j ≤ ts (j + m) := by
    intro m
    induction m with
    | zero => intro _; exact UInt64.le_refl _
    | succ m ih => intro hm; exact UInt64.le_trans (ih (by omega)) (h.step (j + m) (by omega))
  have := this (n - j) (by omega)
  rwa [Nat.add_sub_cancel' hj, h.last] at this

theorem tp_win (hS : S.Honest lo) (k : ℕ) : InWin lo S.eps (S.tpEnv.clock k) := ⟨hS.tpClock.lo_le k, hS.tpClock.le_hi k⟩

omit [NoiseCrypto] [Hashes] in
theorem tpHeader_eq {c : TP} {msgno rcp : UInt8} {ts : UInt64} {len : ℕ} {body : Bytes} (h1 : c.sid = S.sid)
    (h2 : c.sigSk = Signing.skOf S.seed) (hl : len = 111 + body.length) :
    tpHeader c ts len msgno rcp ++ body = tmsg S msgno rcp ts body := by
  unfold tpHeader tmsg
  rw [h1]
  exact smsg_eq h2 hl

/-- Step 1: every peer gets its index. -/
theorem tp1_ok {c : TP} {out : Bytes} (hS : S.Honest lo) (A : TpAt S lo 0 b c)
    (ho : out.length = S.n.toNat * msg1Size) :
    Good (tp1 S.tpEnv.clock log []) (fun s => ∃ ts,
      Chain lo S.eps (S.tpEnv.clock c.ticks) S.n.toNat ts (S.tpEnv.clock s.ctx.ticks) ∧
      s.out = cat S.n.toNat (fun i => tmsg S 1 (idx i) (ts i) []) ∧ s.ctx = { c with ticks := s.ctx.ticks })
      ⟨c, out, 0, 0, []⟩ := by
  unfold Good tp1
  rw [wp_bind, wp_get, wp_ite]
  refine ⟨fun h => absurd rfl h, fun _ => ?_⟩
  rw [wp_ite]
  refine ⟨fun h => absurd (by rw [A.n]; exact ho) h, fun _ => ?_⟩
  dsimp only [msg1Size, hdrSize] at *
  rw [wp_bind, A.n]
  refine wp_forN (fun i s => ∃ ts, Chain lo S.eps (S.tpEnv.clock c.ticks) i ts (S.tpEnv.clock s.ctx.ticks) ∧
    s.out.length = S.n.toNat * 111 ∧
    s.out.take (i * 111) = cat i (fun i => tmsg S 1 (idx i) (ts i) []) ∧ s.ctx = { c with ticks := s.ctx.ticks }) ?_ ?_ ?_
  · exact ⟨_, Chain.zero (tp_win hS _), ho, by simp [cat], rfl⟩
  · rintro i s hi ⟨ts, hc, hl, ht, hs⟩
    have h1 : (i + 1) * 111 ≤ S.n.toNat * 111 := Nat.mul_le_mul_right _ hi
    rw [wp_bind, wp_tpSend (by rw [hl]; omega)]
    rw [wp_bind, wp_get, wp_dump (by
      simp only [List.length_append, List.length_take, List.length_drop, tpHeader_length]
      omega)]
    refine ⟨_, hc.snoc (UInt64.le_refl _) (hS.tpClock.mono _ (s.ctx.ticks + 1) (by omega)) (tp_win hS _) (tp_win hS _),
      ?_, ?_, ?_⟩
    · simp only [List.length_append, List.length_take, List.length_drop, tpHeader_length]
      omega
    · have hh : tpHeader s.ctx (S.tpEnv.clock s.ctx.ticks) 111 1 (idx i) =
          tmsg S 1 (idx i) (S.tpEnv.clock s.ctx.ticks) [] := by
        rw [← List.append_nil (tpHeader _ _ _ _ _)]
        exact tpHeader_eq (by rw [hs]; exact A.sid) (by rw [hs]; exact A.sk) rfl
      rw [cat_succ, ← List.append_assoc, List.take_append_of_le_length (by
        simp only [List.length_append, List.length_take, tpHeader_length]
        omega), List.take_of_length_le (by
        simp only [List.length_append, List.length_take, tpHeader_length]
        omega)]
      dsimp only
      rw [ht, hh, if_neg (by omega), if_pos rfl]
      congr 1
      apply cat_congr
      intro k hk
      rw [if_pos hk]
    · dsimp only
      rw [hs]
  · rintro s ⟨ts, hc, hl, ht, hs⟩
    rw [wp_pure]
    rw [List.take_of_length_le (by omega)] at ht
    refine ⟨rfl, ts, hc, ht, ?_⟩
    rw [← A.n]
    exact hs

/-! ## Step 4 -/

/-- The keys in message 2 of peer `j`. -/
def body2 (S : Setup) (j : ℕ) : Bytes :=
  (Signing.pkOf (S.env j).rnd.seed).toList ++ (NoiseCrypto.xbase (S.env j).rnd.noiseSk).toList

theorem body2_length (j : ℕ) : (body2 S j).length = 64 := by simp [body2]

/-- Message 2 of peer `j`. -/
def msg2 (S : Setup) (j : ℕ) (ts : UInt64) : Bytes := pmsg S j 2 0xff ts (body2 S j)

theorem msg2_length (j : ℕ) (ts : UInt64) : (msg2 S j ts).length = 175 := by
  unfold msg2; rw [pmsg_length, body2_length]

theorem slice_cat_sub {n sz k a l : ℕ} {g : ℕ → Bytes} (h : ∀ k < n, (g k).length = sz) (hk : k < n) (ha : a + l ≤ sz) :
    slice (cat n g) (k * sz + a) l = slice (g k) a l := by
  rw [← slice_cat h hk]
  unfold slice
  rw [List.drop_take, List.take_take, List.drop_drop, Nat.min_eq_left (by omega)]

theorem rd_slice_ok {b : Bytes} {off len : ℕ} (h : off + len ≤ b.length) : rd b off len = .ok (slice b off len) := rd_ok h

theorem le_mul {k n sz : ℕ} (hk : k < n) : k * sz + sz ≤ n * sz := by
  have : (k + 1) * sz ≤ n * sz := Nat.mul_le_mul_right _ hk
  rwa [Nat.add_mul, Nat.one_mul] at this

/-- Step 4: the signing keys are stored and the messages 2 are broadcast. -/
theorem tp4_ok {c : TP} {out : Bytes} {ts : ℕ → UInt64} (hS : S.Honest lo) (A : TpAt S lo 0 b c)
    (hb : ∀ j < S.n.toNat, b j ≤ ts j) (hw : ∀ j < S.n.toNat, InWin lo S.eps (ts j))
    (ho : out.length = msg2Size * S.n.toNat + hdrSize) :
    Good (tp4 S.tpEnv.clock log (cat S.n.toNat fun j => msg2 S j (ts j) ++
        (Signing.sign (Signing.skOf (S.lt j)) (msg2 S j (ts j))).toList))
      (fun s => TpAt S lo S.n.toNat ts s.ctx ∧ ∃ tt, InWin lo S.eps tt ∧ S.tpEnv.clock c.ticks ≤ tt ∧
        tt ≤ S.tpEnv.clock s.ctx.ticks ∧ s.out = tmsg S 3 0xff tt (cat S.n.toNat fun j => msg2 S j (ts j)) ∧
        s.ctx.step = c.step ∧ s.ctx.transcript = updateTranscript c.transcript s.out)
      ⟨c, out, 0, 0, []⟩ := by
  obtain ⟨hn3, hn128⟩ := n_lt hS
  set input := cat S.n.toNat fun j => msg2 S j (ts j) ++
        (Signing.sign (Signing.skOf (S.lt j)) (msg2 S j (ts j))).toList with hinput
  have hg : ∀ j < S.n.toNat, (msg2 S j (ts j) ++
        (Signing.sign (Signing.skOf (S.lt j)) (msg2 S j (ts j))).toList).length = 239 := by
    intro j _
    rw [List.length_append, msg2_length]; simp
  have hil : input.length = S.n.toNat * 239 := cat_length hg
  dsimp only [msg2Size, hdrSize] at *
  unfold Good tp4
  rw [wp_bind, wp_get]
  rw [wp_ite]
  have hcn := A.n
  refine ⟨fun h => absurd (by dsimp only [msg2Size]; rw [hcn, hil]; omega) h, fun _ => ?_⟩
  rw [wp_ite]
  refine ⟨fun h => absurd (by rw [hcn]; exact ho) h, fun _ => ?_⟩
  dsimp only [hdrSize]
  rw [wp_bind, wp_modify, wp_bind]
  refine wp_forN (fun i s => TpAt S lo i ts s.ctx ∧ Out (175 * S.n.toNat + 111) 111 (cat i fun j => msg2 S j (ts j)) s ∧
    s.ctx.step = c.step ∧ s.ctx.transcript = c.transcript ∧ c.ticks ≤ s.ctx.ticks) ?_ ?_ ?_
  · exact ⟨A.mono hb, ⟨ho, by simp [cat], by simp [cat], by simp [cat, slice]⟩, rfl, rfl, le_refl _⟩
  · rintro i s hi ⟨A', O, h1, h2, h3⟩
    have hi : i < S.n.toNat := by rw [← hcn]; exact hi
    have hle := le_mul (sz := 239) hi
    have hle2 := le_mul (sz := 175) hi
    have hcl : (cat i fun j => msg2 S j (ts j)).length = i * 175 := cat_length fun j _ => msg2_length j _
    have hs1 : slice input (i * 239) 175 = msg2 S i (ts i) := by
      have := slice_cat_sub (a := 0) (l := 175) hg hi (by omega)
      rw [Nat.add_zero] at this
      rw [hinput, this]
      unfold slice
      rw [List.drop_zero, List.take_append_of_le_length (by rw [msg2_length]),
        List.take_of_length_le (by rw [msg2_length])]
    have hs2 : slice input (i * 239 + 175) 64 = (Signing.sign (Signing.skOf (S.lt i)) (msg2 S i (ts i))).toList := by
      rw [hinput, slice_cat_sub hg hi (by omega)]
      unfold slice
      rw [List.drop_append, List.drop_of_length_le (by rw [msg2_length]), List.nil_append, msg2_length, Nat.sub_self,
        List.drop_zero, List.take_of_length_le (by simp)]
    have hs3 : slice input (i * 239 + 111) 32 = (Signing.pkOf (S.env i).rnd.seed).toList := by
      rw [slice_smsg (a := 0) hs1 (by omega)]
      simp [slice, body2]
    have hlt : i < s.ctx.ltPks.length := by rw [A'.ltPks]; simp [Setup.ltPks]; exact hi
    have hltk : s.ctx.ltPks[i] = Signing.pkOf (S.lt i) := by
      simp only [A'.ltPks, Setup.ltPks]
      simp
    unfold tp4Body
    dsimp only [msg2Size, hdrSize]
    rw [wp_bind, wp_dump (by omega), wp_bind, wp_get, wp_bind, wp_lift_ok (rd_slice_ok (by omega)), wp_bind,
      wp_lift_ok (rd_slice_ok (by omega)), wp_bind, wp_lift_ok (ld_ok hlt), hs1, hs2, hltk, toB64_toList,
      Signing.verify_sign, wp_ite]
    refine ⟨fun h => by simp at h, fun _ => ?_⟩
    rw [wp_bind, wp_lift_ok (rd_slice_ok (by omega)), hs3, toB32_toList, wp_bind]
    refine wp_tpRecv_ok hS A' hi (hw i hi) (body := body2 S i) (by rw [body2_length]) (by omega) (by omega) hs1 rfl
      fun k => ?_
    rw [wp_ite]
    refine ⟨fun h => absurd rfl h, fun _ => ?_⟩
    have A2 := A'.received (j := i) (k := k) (hw i hi).1
    rw [wp_bind, wp_setSigPk (by rw [A2.sigPks]; exact hi)]
    refine wp_copyOut_ok (len := 175 * S.n.toNat + 111) (base := 111) (acc := cat i fun j => msg2 S j (ts j))
      ⟨O.size, O.w, O.le, O.acc⟩ hs1 (by omega) (by rw [hcl]; omega) fun s' hs' O' => ?_
    rw [cat_succ]
    refine ⟨?_, O', ?_⟩
    · rw [hs']
      refine { A2 with sigPks := by simp; exact A2.sigPks, keys := ?_ }
      intro j hj
      simp only [List.getElem?_set]
      split
      · rename_i e
        subst e
        rw [if_pos (by rw [A2.sigPks]; exact hi)]
      · exact A2.keys j (by omega)
    · rw [hs']
      exact ⟨h1, h2, le_trans h3 (Nat.le_add_right _ _)⟩
  · rintro s ⟨A', O, h1, h2, h3⟩
    rw [hcn] at A' O
    have hcl : (cat S.n.toNat fun j => msg2 S j (ts j)).length = S.n.toNat * 175 := cat_length fun j _ => msg2_length j _
    rw [wp_bind, wp_noCheaters]
    refine ⟨fun h => absurd A'.cheaterLen (by omega), fun _ => ?_⟩
    have hol := O.size
    rw [wp_bind, wp_tpSend (by omega)]
    have hfull := O.full (by rw [hcl]; omega)
    show Wp _ False _ _ _
    simp only [Nat.zero_add, hfull, List.take_zero, List.nil_append]
    rw [tpHeader_eq A'.sid A'.sk (by rw [hcl, ho]; omega)]
    show Wp (tpTranscript >>= _) False _ _ _
    unfold tpTranscript
    rw [wp_bind, wp_modify, wp_pure]
    refine ⟨rfl, (A'.tick _).transcript _, _, tp_win hS _, hS.tpClock.mono _ _ h3, hS.tpClock.mono _ _ (Nat.le_succ _), rfl,
      h1, ?_⟩
    dsimp only
    rw [h2]

/-! ## Steps 6, 8 and 14 -/

/-- What the loops of the steps leave unchanged. -/
structure Kept (c c' : TP) : Prop where
  step : c'.step = c.step
  transcript : c'.transcript = c.transcript
  ticks : c.ticks ≤ c'.ticks

theorem Kept.refl (c : TP) : Kept c c := ⟨rfl, rfl, le_refl _⟩

theorem Kept.received {c c' : TP} (h : Kept c c') (j k : ℕ) (ts : UInt64) : Kept c (received c' j ts k) :=
  ⟨h.step, h.transcript, le_trans h.ticks (Nat.le_add_right _ _)⟩

/-- The messages `msg j i` from peer `j` to peer `i` are checked and sorted by recipient. -/
theorem wp_matrix {B : ℕ → ℕ → H Run Unit} {msg : ℕ → ℕ → Bytes} {sz : ℕ} {ts : ℕ → ℕ → UInt64} {y : ℕ → UInt64} {c : TP}
    {s : Run} {Q : Unit → Run → Prop} (hsz : ∀ j < S.n.toNat, ∀ i < S.n.toNat, (msg j i).length = sz)
    (hc : ∀ j < S.n.toNat, Chain lo S.eps (b j) S.n.toNat (ts j) (y j))
    (hB : ∀ i < S.n.toNat, ∀ j < S.n.toNat, ∀ (s : Run) (acc : Bytes) (Q : Unit → Run → Prop),
      TpAt S lo S.n.toNat (fun j => ts j i) s.ctx → Out (S.n.toNat * (S.n.toNat * sz)) 0 acc s →
      acc.length + sz ≤ S.n.toNat * (S.n.toNat * sz) →
      (∀ s' k, s'.ctx = received s.ctx j (ts j i) k → Out (S.n.toNat * (S.n.toNat * sz)) 0 (acc ++ msg j i) s' → Q () s') →
      Wp (B i j) False (fun _ _ => False) Q s)
    (A : TpAt S lo S.n.toNat b s.ctx) (hs : s.out.length = S.n.toNat * (S.n.toNat * sz)) (hw : s.w = 0) (hk : Kept c s.ctx)
    (hQ : ∀ s', TpAt S lo S.n.toNat y s'.ctx → Kept c s'.ctx →
      s'.out = cat S.n.toNat (fun i => cat S.n.toNat fun j => msg j i) → Q () s') :
    Wp (H.forN S.n.toNat fun i => H.forN S.n.toNat fun j => B i j) False (fun _ _ => False) Q s := by
  set n := S.n.toNat with hn
  have hrow : ∀ i < n, (cat n fun j => msg j i).length = n * sz := fun i hi => cat_length fun j hj => hsz j hj i hi
  refine wp_forN (fun i s => TpAt S lo n (fun j => ts j i) s.ctx ∧ Kept c s.ctx ∧
    Out (n * (n * sz)) 0 (cat i fun i => cat n fun j => msg j i) s) ?_ ?_ ?_
  · exact ⟨A.mono fun j hj => (hc j hj).start, hk, ⟨hs, by simp [cat, hw], by simp [cat], by simp [cat, slice]⟩⟩
  · rintro i s hi ⟨A1, K1, O1⟩
    have hacc : (cat i fun i => cat n fun j => msg j i).length = i * (n * sz) :=
      cat_length fun i' hi' => hrow i' (by omega)
    have hle := le_mul (sz := n * sz) hi
    refine wp_forN (fun j s => TpAt S lo n (fun j => ts j i) s.ctx ∧ Kept c s.ctx ∧
      Out (n * (n * sz)) 0 ((cat i fun i => cat n fun j => msg j i) ++ cat j fun j => msg j i) s) ?_ ?_ ?_
    · exact ⟨A1, K1, by rw [cat_zero, List.append_nil]; exact O1⟩
    · rintro j s hj ⟨A2, K2, O2⟩
      have hle2 := le_mul (sz := sz) hj
      refine hB i hi j hj s _ _ A2 O2 ?_ ?_
      · rw [List.length_append, hacc, cat_length fun k hk => hsz k (by omega) i hi]
        omega
      · intro s' k hs' O3
        rw [hs', cat_succ, ← List.append_assoc]
        exact ⟨A2.received ((hc j hj).win i (by omega)).1, K2.received _ _ _, O3⟩
    · rintro s ⟨A2, K2, O2⟩
      rw [cat_succ]
      exact ⟨A2.mono fun j hj => (hc j hj).step i hi, K2, O2⟩
  · rintro s ⟨A1, K1, O1⟩
    refine hQ s (A1.mono fun j hj => by rw [(hc j hj).last]; exact UInt64.le_refl _) K1 ?_
    have hacc : (cat n fun i => cat n fun j => msg j i).length = n * (n * sz) := cat_length hrow
    have := O1.full (by rw [hacc]; omega)
    rwa [List.drop_zero] at this

theorem cat2_length {n sz : ℕ} {msg : ℕ → ℕ → Bytes} (hsz : ∀ j < n, ∀ i < n, (msg j i).length = sz) :
    (cat n fun j => cat n (msg j)).length = n * (n * sz) :=
  cat_length fun j hj => cat_length (hsz j hj)

theorem mat_le {n i j sz : ℕ} (hj : j < n) (hi : i < n) : (j * n + i) * sz + sz ≤ n * (n * sz) := by
  have h := le_mul (sz := n * sz) hj
  have h' := le_mul (sz := sz) hi
  have e : (j * n + i) * sz = j * (n * sz) + i * sz := by ring
  omega

/-- Steps 6 and 8: the messages of the handshakes are sorted by recipient. -/
theorem tp68_ok {c : TP} {out : Bytes} {ts : ℕ → ℕ → UInt64} {y : ℕ → UInt64} {body : ℕ → ℕ → Bytes} {no : UInt8}
    (hS : S.Honest lo) (A : TpAt S lo S.n.toNat b c)
    (hc : ∀ j < S.n.toNat, Chain lo S.eps (b j) S.n.toNat (ts j) (y j))
    (hb : ∀ j < S.n.toNat, ∀ i < S.n.toNat, (body j i).length = 48) (hno : no = UInt8.ofNat (2 + c.step))
    (ho : out.length = msg4Size * S.n.toNat * S.n.toNat) :
    Good (tp68 S.tpEnv.clock log (cat S.n.toNat fun j => cat S.n.toNat fun i => pmsg S j no (idx i) (ts j i) (body j i)))
      (fun s => TpAt S lo S.n.toNat y s.ctx ∧ Kept c s.ctx ∧
        s.out = cat S.n.toNat fun i => cat S.n.toNat fun j => pmsg S j no (idx i) (ts j i) (body j i))
      ⟨c, out, 0, 0, []⟩ := by
  obtain ⟨hn3, hn128⟩ := n_lt hS
  set msg := fun j i => pmsg S j no (idx i) (ts j i) (body j i) with hmsg
  have hsz : ∀ j < S.n.toNat, ∀ i < S.n.toNat, (msg j i).length = 159 := fun j hj i hi => by
    rw [hmsg]; dsimp only; rw [pmsg_length, hb j hj i hi]
  set input := cat S.n.toNat fun j => cat S.n.toNat (msg j) with hinput
  have hil : input.length = S.n.toNat * (S.n.toNat * 159) := cat2_length hsz
  have e : 159 * S.n.toNat * S.n.toNat = S.n.toNat * (S.n.toNat * 159) := by ring
  dsimp only [msg4Size] at ho
  have hcn := A.n
  unfold Good tp68
  rw [wp_bind, wp_get, wp_ite]
  refine ⟨fun h => absurd (by dsimp only [msg4Size]; rw [hcn, e]; exact hil) h, fun _ => ?_⟩
  rw [wp_ite]
  refine ⟨fun h => absurd (by dsimp only; rw [ho, e]; exact hil) h, fun _ => ?_⟩
  dsimp only
  rw [wp_bind, wp_modify, wp_bind, hcn]
  refine wp_matrix (b := b) (y := y) (c := c) (ts := ts) (msg := msg) (sz := 159) hsz hc ?_ A (by rw [ho, e]) rfl
    (Kept.refl c) ?_
  · intro i hi j hj s acc Q A1 O1 hl hQ
    have hle := mat_le (sz := 159) hj hi
    have hm : slice input ((j * S.n.toNat + i) * 159) 159 = msg j i := slice_cat2 hsz hj hi
    unfold tp68Body
    dsimp only [msg4Size]
    have hk : j < s.ctx.sigPks.length := by rw [A1.sigPks]; exact hj
    rw [wp_bind, wp_sigPkOf hk, A1.key hj hk, wp_bind]
    refine wp_tpRecv_ok hS A1 hj ((hc j hj).win i (by omega)) (body := body j i) (by rw [hb j hj i hi]) (by omega)
      (by omega) (by rw [hm, hmsg, ← hno]) rfl fun k => ?_
    rw [wp_ite]
    refine ⟨fun h => absurd rfl h, fun _ => ?_⟩
    refine wp_copyOut_ok (len := S.n.toNat * (S.n.toNat * 159)) (base := 0) (acc := acc) ⟨O1.size, O1.w, O1.le, O1.acc⟩ hm
      (by omega) (by omega) fun s' hs' O' => hQ s' k hs' O'
  · intro s A1 K1 h1
    rw [wp_bind, wp_noCheaters]
    refine ⟨fun h => absurd A1.cheaterLen (by omega), fun _ => ?_⟩
    rw [wp_pure]
    exact ⟨rfl, A1, K1, h1⟩

/-- Step 14: the encrypted shares are kept and sorted by recipient. -/
theorem tp14_ok {c : TP} {out : Bytes} {ts : ℕ → ℕ → UInt64} {y : ℕ → UInt64} {body : ℕ → ℕ → Bytes}
    (hS : S.Honest lo) (A : TpAt S lo S.n.toNat b c)
    (hc : ∀ j < S.n.toNat, Chain lo S.eps (b j) S.n.toNat (ts j) (y j))
    (hb : ∀ j < S.n.toNat, ∀ i < S.n.toNat, (body j i).length = 145)
    (ho : out.length = S.n.toNat * S.n.toNat * msg8Size) :
    Good (tp14 S.tpEnv.clock log (cat S.n.toNat fun j => cat S.n.toNat fun i => pmsg S j 8 (idx i) (ts j i) (body j i)))
      (fun s => TpAt S lo S.n.toNat y s.ctx ∧ Kept c s.ctx ∧
        s.out = cat S.n.toNat fun i => cat S.n.toNat fun j => pmsg S j 8 (idx i) (ts j i) (body j i))
      ⟨c, out, 0, 0, []⟩ := by
  obtain ⟨hn3, hn128⟩ := n_lt hS
  set msg := fun j i => pmsg S j 8 (idx i) (ts j i) (body j i) with hmsg
  have hsz : ∀ j < S.n.toNat, ∀ i < S.n.toNat, (msg j i).length = 256 := fun j hj i hi => by
    rw [hmsg]; dsimp only; rw [pmsg_length, hb j hj i hi]
  set input := cat S.n.toNat fun j => cat S.n.toNat (msg j) with hinput
  have hil : input.length = S.n.toNat * (S.n.toNat * 256) := cat2_length hsz
  have e : 256 * S.n.toNat * S.n.toNat = S.n.toNat * (S.n.toNat * 256) := by ring
  have e' : S.n.toNat * S.n.toNat * 256 = S.n.toNat * (S.n.toNat * 256) := by ring
  dsimp only [msg8Size] at ho
  have hcn := A.n
  unfold Good tp14
  rw [wp_bind, wp_get, wp_ite]
  refine ⟨fun h => absurd (by dsimp only [msg8Size]; rw [hcn, e]; exact hil) h, fun _ => ?_⟩
  rw [wp_ite]
  refine ⟨fun h => absurd (by dsimp only; rw [ho, e']; exact hil) h, fun _ => ?_⟩
  dsimp only
  rw [wp_bind, wp_modify, wp_bind, hcn]
  refine wp_matrix (b := b) (y := y) (c := c) (ts := ts) (msg := msg) (sz := 256) hsz hc ?_ A (by rw [ho, e']) rfl
    (Kept.refl c) ?_
  · intro i hi j hj s acc Q A1 O1 hl hQ
    have hle := mat_le (sz := 256) hj hi
    have hm : slice input ((j * S.n.toNat + i) * 256) 256 = msg j i := slice_cat2 hsz hj hi
    unfold tp14Body
    dsimp only [msg8Size]
    have hk : j < s.ctx.sigPks.length := by rw [A1.sigPks]; exact hj
    rw [wp_bind, wp_dump (by omega), wp_bind, wp_sigPkOf hk, A1.key hj hk, wp_bind]
    refine wp_tpRecv_ok hS A1 hj ((hc j hj).win i (by omega)) (body := body j i) (by rw [hb j hj i hi]) (by omega)
      (by omega) hm rfl fun k => ?_
    rw [wp_ite]
    refine ⟨fun h => absurd rfl h, fun _ => ?_⟩
    refine wp_copyOut_ok (len := S.n.toNat * (S.n.toNat * 256)) (base := 0) (acc := acc) ⟨O1.size, O1.w, O1.le, O1.acc⟩ hm
      (by omega) (by omega) fun s' hs' O' => hQ s' k hs' O'
  · intro s A1 K1 h1
    have hes := A1.encShares
    dsimp only [msg8Size] at hes
    rw [wp_bind, wp_noCheaters]
    refine ⟨fun h => absurd A1.cheaterLen (by omega), fun _ => ?_⟩
    rw [wp_bind, wp_keepShares (by omega), wp_pure]
    refine ⟨rfl, { A1 with encShares := ?_ }, ⟨K1.step, K1.transcript, K1.ticks⟩, h1⟩
    simp only [List.length_append, List.length_drop, msg8Size]
    omega

/-! ## Steps 12 and 16 -/

/-- Step 12: the commitments are stored and broadcast. -/
theorem tp12_ok {c : TP} {out : Bytes} {ts : ℕ → UInt64} {body : ℕ → Bytes} (hS : S.Honest lo)
    (A : TpAt S lo S.n.toNat b c) (hb : ∀ j < S.n.toNat, b j ≤ ts j) (hw : ∀ j < S.n.toNat, InWin lo S.eps (ts j))
    (hbl : ∀ j < S.n.toNat, (body j).length = 32 * S.t.toNat)
    (ho : out.length = hdrSize + msg6Size S.t * S.n.toNat) :
    Good (tp12 S.tpEnv.clock log (cat S.n.toNat fun j => pmsg S j 6 0xff (ts j) (body j)))
      (fun s => TpAt S lo S.n.toNat ts s.ctx ∧ ∃ tt, InWin lo S.eps tt ∧ S.tpEnv.clock c.ticks ≤ tt ∧
        tt ≤ S.tpEnv.clock s.ctx.ticks ∧
        s.out = tmsg S 7 0xff tt (cat S.n.toNat fun j => pmsg S j 6 0xff (ts j) (body j)) ∧
        s.ctx.step = c.step ∧ s.ctx.transcript = updateTranscript c.transcript s.out)
      ⟨c, out, 0, 0, []⟩ := by
  obtain ⟨hn3, hn128⟩ := n_lt hS
  have ht := hS.t_lt
  set msg := fun j => pmsg S j 6 0xff (ts j) (body j) with hmsg
  obtain ⟨sz, hsz0⟩ : ∃ sz, sz = 111 + 32 * S.t.toNat := ⟨_, rfl⟩
  have hm6 : msg6Size S.t = sz := by rw [hsz0]; rfl
  have hg : ∀ j < S.n.toNat, (msg j).length = sz := fun j hj => by rw [hmsg]; dsimp only; rw [pmsg_length, hbl j hj, hsz0]
  set input := cat S.n.toNat msg with hinput
  have hil : input.length = S.n.toNat * sz := cat_length hg
  have e : sz * S.n.toNat = S.n.toNat * sz := by ring
  dsimp only [hdrSize] at ho
  rw [hm6, e] at ho
  have hcn := A.n
  have hct := A.t
  unfold Good tp12
  rw [wp_bind, wp_get, wp_ite]
  refine ⟨fun h => absurd (by dsimp only; rw [hcn, hct, hm6, e]; exact hil.symm) h, fun _ => ?_⟩
  rw [wp_ite]
  refine ⟨fun h => absurd (by dsimp only [hdrSize]; rw [ho, hil]) h, fun _ => ?_⟩
  dsimp only [hdrSize]
  rw [wp_bind, wp_modify, wp_bind, hct]
  refine wp_forN (fun i s => TpAt S lo S.n.toNat ts s.ctx ∧ Kept c s.ctx ∧ Out (111 + S.n.toNat * sz) 111 (cat i msg) s) ?_ ?_ ?_
  · exact ⟨A.mono hb, Kept.refl c,
      ⟨ho, by simp [cat], by simp [cat], by simp [cat, slice]⟩⟩
  · rintro i s hi ⟨A1, K1, O⟩
    have hi : i < S.n.toNat := by rw [← hcn]; exact hi
    have hle := le_mul (sz := sz) hi
    have hle2 := le_mul (sz := S.t.toNat) hi
    have hcl : (cat i msg).length = i * sz := cat_length fun j hj => hg j (by omega)
    have hm : slice input (i * sz) sz = msg i := slice_cat hg hi
    have hk : i < s.ctx.sigPks.length := by rw [A1.sigPks]; exact hi
    unfold tp12Body
    dsimp only
    rw [hm6, wp_bind, wp_dump (by omega), wp_bind, wp_sigPkOf hk, A1.key hi hk, wp_bind]
    refine wp_tpRecv_ok hS A1 hi (hw i hi) (body := body i) (by rw [hbl i hi, hsz0]) (by omega) (by omega) hm rfl
      fun k => ?_
    rw [wp_ite]
    refine ⟨fun h => absurd rfl h, fun _ => ?_⟩
    have A2 := A1.received (j := i) (k := k) (hw i hi).1
    have hd : ∀ d, (toB32s S.t.toNat d).length = S.t.toNat := fun d => by simp [toB32s]
    rw [wp_bind, wp_lift_ok (rd_slice_ok (by dsimp only [hdrSize]; omega)), wp_bind,
      wp_setCommitments (by rw [hd, A2.commitments]; omega)]
    refine wp_copyOut_ok (len := 111 + S.n.toNat * sz) (base := 111) (acc := cat i msg)
      ⟨O.size, O.w, O.le, O.acc⟩ hm (by omega) (by rw [hcl]; omega) fun s' hs' O' => ?_
    rw [cat_succ, hs']
    refine ⟨{ A2 with commitments := ?_ }, ⟨K1.step, K1.transcript, le_trans K1.ticks (Nat.le_add_right _ _)⟩, O'⟩
    have := A2.commitments
    simp only [List.length_append, List.length_take, List.length_drop, hd]
    omega
  · rintro s ⟨A1, K1, O⟩
    rw [hcn] at O
    have hcl : (cat S.n.toNat msg).length = S.n.toNat * sz := hil
    rw [wp_bind, wp_noCheaters]
    refine ⟨fun h => absurd A1.cheaterLen (by omega), fun _ => ?_⟩
    have hol := O.size
    rw [wp_bind, wp_tpSend (by omega)]
    have hfull := O.full (by rw [hcl])
    show Wp _ False _ _ _
    simp only [Nat.zero_add, hfull, List.take_zero, List.nil_append]
    rw [tpHeader_eq A1.sid A1.sk (by rw [hcl, ho])]
    show Wp (tpTranscript >>= _) False _ _ _
    unfold tpTranscript
    rw [wp_bind, wp_modify, wp_pure]
    refine ⟨rfl, (A1.tick _).transcript _, _, tp_win hS _, hS.tpClock.mono _ _ K1.ticks,
      hS.tpClock.mono _ _ (Nat.le_succ _), rfl, K1.step, ?_⟩
    dsimp only
    rw [K1.transcript]

/-- The length field of a message that is shorter than 256 bytes, read without conversion, is large. -/
theorem lenField_smsg {seed sid : B32} {msgno frm rcp : UInt8} {ts : UInt64} {body buf : Bytes} {off len : ℕ}
    (hm : slice buf off len = smsg seed sid msgno frm rcp ts body) (hl : len = 111 + body.length) (h : len < 256) :
    256 ≤ (lenField (slice buf (off + 65) 4)).toNat := by
  have e : slice buf (off + 65) 4 = beBytes 4 (UInt32.ofNat (111 + body.length)).toNat := by
    have e1 : slice (slice buf off len) 65 4 = slice buf (off + 65) 4 := by
      unfold slice
      rw [List.drop_take, List.take_take, List.drop_drop, Nat.min_eq_left (by omega)]
    rw [← e1, hm]
    exact encode_len _ _ _
  refine lenField_large (len := len) ?_ (by omega) h
  rw [e, htonl_u32 (by simp), beNat_beBytes, ← hl, UInt32.toNat_ofNat_of_lt' (by rw [UInt32.size]; omega)]
  exact Nat.mod_eq_of_lt (by norm_num; omega)

/-- Step 16: messages without complaints are broadcast. -/
theorem tp16_ok {c : TP} {out : Bytes} {ts : ℕ → UInt64} {body : ℕ → Bytes} (hS : S.Honest lo)
    (A : TpAt S lo S.n.toNat b c) (hb : ∀ j < S.n.toNat, b j ≤ ts j) (hw : ∀ j < S.n.toNat, InWin lo S.eps (ts j))
    (hbl : ∀ j < S.n.toNat, (body j).length = S.n.toNat + 1) (hb0 : ∀ j < S.n.toNat, (body j)[0]? = some 0)
    (ho : out.length = msg10Size S.n) :
    Good (tp16 S.tpEnv.clock log (cat S.n.toNat fun j => pmsg S j 9 0xff (ts j) (body j)))
      (fun s => TpAt S lo S.n.toNat ts s.ctx ∧ ∃ tt, InWin lo S.eps tt ∧ S.tpEnv.clock c.ticks ≤ tt ∧
        tt ≤ S.tpEnv.clock s.ctx.ticks ∧
        s.out = tmsg S 10 0xff tt (cat S.n.toNat fun j => pmsg S j 9 0xff (ts j) (body j)) ∧
        s.ctx.step = c.step ∧ s.ctx.transcript = updateTranscript c.transcript s.out)
      ⟨c, out, 0, 0, []⟩ := by
  obtain ⟨hn3, hn128⟩ := n_lt hS
  have ht := hS.t_ge
  set msg := fun j => pmsg S j 9 0xff (ts j) (body j) with hmsg
  obtain ⟨sz, hsz0⟩ : ∃ sz, sz = 111 + (S.n.toNat + 1) := ⟨_, rfl⟩
  have hm9 : msg9Size S.n = sz := by rw [hsz0]; rfl
  have hg : ∀ j < S.n.toNat, (msg j).length = sz := fun j hj => by rw [hmsg]; dsimp only; rw [pmsg_length, hbl j hj, hsz0]
  set input := cat S.n.toNat msg with hinput
  have hil : input.length = S.n.toNat * sz := cat_length hg
  have e : sz * S.n.toNat = S.n.toNat * sz := by ring
  unfold msg10Size at ho
  rw [hm9] at ho
  have hcn := A.n
  have hct := A.t
  unfold Good tp16
  rw [wp_bind, wp_get, wp_ite]
  refine ⟨fun h => absurd (by dsimp only; rw [hcn, hm9, e]; exact hil.symm) h, fun _ => ?_⟩
  rw [wp_ite]
  refine ⟨fun h => absurd (by dsimp only [hdrSize, msg10Size]; rw [ho, hcn, hm9]) h, fun _ => ?_⟩
  dsimp only [hdrSize]
  rw [wp_bind, wp_setCtx, wp_bind, wp_modify, wp_bind, hcn]
  refine wp_forN (fun i s => TpAt S lo S.n.toNat ts s.ctx ∧ Kept c s.ctx ∧ Out (111 + S.n.toNat * sz) 111 (cat i msg) s) ?_ ?_ ?_
  · refine ⟨{ A.mono hb with complaintsLen := rfl, n := rfl }, ⟨rfl, rfl, le_refl _⟩,
      ⟨ho, by simp [cat], by simp [cat], by simp [cat, slice]⟩⟩
  · rintro i s hi ⟨A1, K1, O⟩
    have hle := le_mul (sz := sz) hi
    have hcl : (cat i msg).length = i * sz := cat_length fun j hj => hg j (by omega)
    have hm : slice input (i * sz) sz = msg i := slice_cat hg hi
    have hk : i < s.ctx.sigPks.length := by rw [A1.sigPks]; exact hi
    unfold tp16Body
    dsimp only
    rw [hm9, wp_bind, wp_dump (by omega), wp_bind, wp_sigPkOf hk, A1.key hi hk, wp_bind]
    refine wp_tpRecv_ok hS A1 hi (hw i hi) (body := body i) (by rw [hbl i hi, hsz0]) (by omega) (by omega) hm rfl
      fun k => ?_
    rw [wp_ite]
    refine ⟨fun h => absurd rfl h, fun _ => ?_⟩
    have A2 := A1.received (j := i) (k := k) (hw i hi).1
    have hld : ld input (i * sz + hdrSize) = .ok 0 := by
      have h1 := slice_smsg (a := 0) (k := 1) hm (by omega)
      have h2 : i * sz + 111 < input.length := by omega
      dsimp only [hdrSize]
      rw [ld_ok h2]
      have h3 := hb0 i hi
      unfold slice at h1
      rw [List.drop_eq_getElem_cons h2, List.take_succ_cons, List.take_zero, List.drop_zero] at h1
      have h4 : (body i).take 1 = [0] := by
        cases hbi : body i with
        | nil => rw [hbi] at h3; cases h3
        | cons x l =>
          rw [hbi] at h3
          simp only [List.getElem?_cons_zero, Option.some.injEq] at h3
          rw [h3]; rfl
      rw [h4] at h1
      rw [(List.cons.inj h1).1]
    rw [wp_bind, wp_lift_ok (rd_slice_ok (by omega)), wp_bind, wp_lift_ok hld, wp_ite]
    refine ⟨fun h => absurd h (by simp), fun _ => ?_⟩
    rw [wp_bind]
    refine wp_forN (fun _ s' => s' = { s with ctx := TpDkg.received s.ctx i (ts i) k }) rfl ?_ ?_
    · intro k' _ hk' _
      simp at hk'
    · rintro s' rfl
      refine wp_copyOut_ok (len := 111 + S.n.toNat * sz) (base := 111) (acc := cat i msg)
        ⟨O.size, O.w, O.le, O.acc⟩ hm (by omega) (by rw [hcl]; omega) fun s' hs' O' => ?_
      rw [cat_succ, hs']
      exact ⟨A2, K1.received _ _ _, O'⟩
  · rintro s ⟨A1, K1, O⟩
    have hcl : (cat S.n.toNat msg).length = S.n.toNat * sz := hil
    have hol := O.size
    rw [wp_bind, wp_get]
    have hfull := O.full (by rw [hcl])
    have hfin : Wp (do noCheaters 5; tpSend S.tpEnv.clock 0 s.out.length 10 0xff; tpTranscript; pure (0 : Int)) False
        (fun _ _ => False) (fun r s => r = 0 ∧ TpAt S lo S.n.toNat ts s.ctx ∧ ∃ tt, InWin lo S.eps tt ∧
          S.tpEnv.clock c.ticks ≤ tt ∧ tt ≤ S.tpEnv.clock s.ctx.ticks ∧ s.out = tmsg S 10 0xff tt input ∧
          s.ctx.step = c.step ∧ s.ctx.transcript = updateTranscript c.transcript s.out) s := by
      rw [wp_bind, wp_noCheaters]
      refine ⟨fun h => absurd A1.cheaterLen (by omega), fun _ => ?_⟩
      rw [wp_bind, wp_tpSend (by omega)]
      simp only [Nat.zero_add, hfull, List.take_zero, List.nil_append]
      rw [tpHeader_eq A1.sid A1.sk (by rw [hcl, hol])]
      show Wp (tpTranscript >>= _) False _ _ _
      unfold tpTranscript
      rw [wp_bind, wp_modify, wp_pure]
      refine ⟨rfl, (A1.tick _).transcript _, _, tp_win hS _, hS.tpClock.mono _ _ K1.ticks,
        hS.tpClock.mono _ _ (Nat.le_succ _), rfl, K1.step, ?_⟩
      dsimp only
      rw [K1.transcript]
    have hcl0 : s.ctx.complaintsLen.toNat = 0 := by rw [A1.complaintsLen]; rfl
    have htt : ¬ s.ctx.complaintsLen.toNat ≥ s.ctx.t.toNat * s.ctx.t.toNat := by
      rw [hcl0, A1.t]
      have : 0 < S.t.toNat * S.t.toNat := Nat.mul_pos (by omega) (by omega)
      omega
    rw [wp_ite]
    refine ⟨fun _ => ?_, fun _ => ?_⟩
    · rw [wp_bind, wp_lift_ok (rd_ok (by rw [hcl0]; omega)), wp_ite]
      exact ⟨fun h => absurd h htt, fun _ => hfin⟩
    · rw [wp_ite]
      exact ⟨fun h => absurd h htt, fun _ => hfin⟩

/-! ## Steps 20 and 22 -/

/-- Step 20: the hashes of the transcripts agree. -/
theorem tp20_ok {c : TP} {out : Bytes} {ts : ℕ → UInt64} (hS : S.Honest lo)
    (A : TpAt S lo S.n.toNat b c) (hb : ∀ j < S.n.toNat, b j ≤ ts j) (hw : ∀ j < S.n.toNat, InWin lo S.eps (ts j))
    (ho : out.length = msg20Size) :
    Good (tp20 S.tpEnv.clock log (cat S.n.toNat fun j =>
        pmsg S j 20 0 (ts j) (Hashes.generichash32 c.transcript).toList))
      (fun s => TpAt S lo S.n.toNat ts s.ctx ∧ ∃ tt, InWin lo S.eps tt ∧ S.tpEnv.clock c.ticks ≤ tt ∧
        tt ≤ S.tpEnv.clock s.ctx.ticks ∧ s.out = tmsg S 21 0xff tt [79, 75] ∧ s.ctx.step = c.step)
      ⟨c, out, 0, 0, []⟩ := by
  obtain ⟨hn3, hn128⟩ := n_lt hS
  set hash := Hashes.generichash32 c.transcript with hhash
  set msg := fun j => pmsg S j 20 0 (ts j) hash.toList with hmsg
  have hg : ∀ j < S.n.toNat, (msg j).length = 143 := fun j hj => by rw [hmsg]; dsimp only; rw [pmsg_length]; simp
  set input := cat S.n.toNat msg with hinput
  have hil : input.length = S.n.toNat * 143 := cat_length hg
  dsimp only [msg20Size] at ho
  have hcn := A.n
  unfold Good tp20
  rw [wp_bind, wp_get, wp_ite]
  refine ⟨fun h => absurd (by dsimp only [msg19Size]; rw [hcn, hil]; omega) h, fun _ => ?_⟩
  rw [wp_ite]
  refine ⟨fun h => absurd (by dsimp only [msg20Size]; exact ho) h, fun _ => ?_⟩
  dsimp only [hdrSize]
  rw [wp_bind, wp_setOut (by simp; omega), wp_bind, ← hhash, hcn]
  refine wp_forN (fun i s => TpAt S lo S.n.toNat ts s.ctx ∧ Kept c s.ctx ∧ s.out.length = 113 ∧ s.out.drop 111 = [79, 75]) ?_ ?_ ?_
  · refine ⟨A.mono hb, Kept.refl c, by simp; omega, ?_⟩
    dsimp only
    rw [List.append_assoc, List.drop_append, List.drop_of_length_le (by simp), List.nil_append]
    simp [ho]
  · rintro i s hi ⟨A1, K1, h1, h2⟩
    have hle := le_mul (sz := 143) hi
    have hm : slice input (i * 143) 143 = msg i := slice_cat hg hi
    have hk : i < s.ctx.sigPks.length := by rw [A1.sigPks]; exact hi
    unfold tp20Body
    dsimp only [msg19Size]
    rw [wp_bind, wp_dump (by omega), wp_bind, wp_sigPkOf hk, A1.key hi hk, wp_bind]
    refine wp_tpRecv_ok hS A1 hi (hw i hi) (body := hash.toList) (by simp) (by omega) (by omega) hm rfl
      fun k => ?_
    rw [wp_ite]
    refine ⟨fun h => absurd rfl h, fun _ => ?_⟩
    have A2 := A1.received (j := i) (k := k) (hw i hi).1
    dsimp only [hdrSize]
    rw [wp_bind, wp_lift_ok (rd_slice_ok (by omega)), slice_smsg (a := 0) hm (by omega), wp_ite]
    refine ⟨fun h => absurd (by simp [slice]) h, fun _ => ?_⟩
    rw [wp_pure]
    exact ⟨A2, K1.received _ _ _, h1, h2⟩
  · rintro s ⟨A1, K1, h1, h2⟩
    rw [wp_bind, wp_tpSend (by omega), wp_bind, wp_get, wp_ite]
    refine ⟨fun _ => ?_, fun h => absurd A1.cheaterLen h⟩
    rw [wp_pure]
    refine ⟨rfl, A1.tick _, S.tpEnv.clock s.ctx.ticks, tp_win hS _, hS.tpClock.mono _ _ K1.ticks,
      hS.tpClock.mono _ _ (Nat.le_succ _), ?_, K1.step⟩
    simp only [Nat.zero_add, h2, List.take_zero, List.nil_append]
    exact tpHeader_eq A1.sid A1.sk (by rw [ho]; rfl)

/-- Step 22: all peers confirm. -/
theorem tp22_ok {c : TP} {ts : ℕ → UInt64} (hS : S.Honest lo)
    (A : TpAt S lo S.n.toNat b c) (hb : ∀ j < S.n.toNat, b j ≤ ts j) (hw : ∀ j < S.n.toNat, InWin lo S.eps (ts j)) :
    Good (tp22 S.tpEnv.clock log (cat S.n.toNat fun j => pmsg S j 22 0 (ts j) [79, 75]))
      (fun s => TpAt S lo S.n.toNat ts s.ctx ∧ Kept c s.ctx ∧ s.out = []) ⟨c, [], 0, 0, []⟩ := by
  obtain ⟨hn3, hn128⟩ := n_lt hS
  set msg := fun j => pmsg S j 22 0 (ts j) [79, 75] with hmsg
  have hg : ∀ j < S.n.toNat, (msg j).length = 113 := fun j hj => by rw [hmsg]; dsimp only; rw [pmsg_length]; simp
  set input := cat S.n.toNat msg with hinput
  have hil : input.length = S.n.toNat * 113 := cat_length hg
  have hcn := A.n
  unfold Good tp22
  rw [wp_bind, wp_get, wp_ite]
  refine ⟨fun h => absurd (by dsimp only [msg21Size]; rw [hcn, hil]; omega) h, fun _ => ?_⟩
  rw [wp_ite]
  refine ⟨fun h => absurd rfl h, fun _ => ?_⟩
  dsimp only
  rw [wp_bind]
  refine wp_forN (fun i s => TpAt S lo S.n.toNat ts s.ctx ∧ Kept c s.ctx ∧ s.out = []) ?_ ?_ ?_
  · exact ⟨A.mono hb, Kept.refl c, rfl⟩
  · rintro i s hi ⟨A1, K1, h1⟩
    have hi : i < S.n.toNat := by rw [← hcn]; exact hi
    have hle := le_mul (sz := 113) hi
    have hm : slice input (i * 113) 113 = msg i := slice_cat hg hi
    have hk : i < s.ctx.sigPks.length := by rw [A1.sigPks]; exact hi
    unfold tp22Body
    dsimp only [msg21Size]
    rw [wp_bind, wp_dump (by omega), wp_bind, wp_sigPkOf hk, A1.key hi hk, wp_bind]
    refine wp_tpRecv_ok hS A1 hi (hw i hi) (body := [79, 75]) (by simp) (by omega) (by omega) hm rfl
      fun k => ?_
    rw [wp_ite]
    refine ⟨fun h => absurd rfl h, fun _ => ?_⟩
    rw [wp_bind, wp_lift_ok (rd_slice_ok (by dsimp only [hdrSize]; omega)), wp_pure]
    exact ⟨A1.received (j := i) (k := k) (hw i hi).1, K1.received _ _ _, h1⟩
  · rintro s ⟨A1, K1, h1⟩
    rw [wp_bind, wp_noCheaters]
    refine ⟨fun h => absurd A1.cheaterLen (by omega), fun _ => ?_⟩
    rw [wp_pure]
    exact ⟨rfl, A1, K1, h1⟩

end Verif.TpDkg.Honest
