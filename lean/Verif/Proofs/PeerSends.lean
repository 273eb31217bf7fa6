import Verif.Proofs.Defence

/-!
# Lemmas about the messages that a peer sends
-/

set_option linter.unusedSectionVars false

namespace Verif.TpDkg

open H Wire Noise Spec.Wire

variable [Hashes] [NoiseCrypto] [Signing] [Mac]

/-- The first `m` messages of a batch of messages of 159 bytes for all peers. -/
def Batch (clock : ℕ → UInt64) (c c' : PeerState) (msgno : UInt8) (o : Bytes) (m : ℕ) : Prop :=
  ∃ ks, Readings c c' m ks ∧ ∀ j < m, ∃ body : Bytes, body.length = 48 ∧
    slice o (j * 159) 159 = signedBy c msgno (idx j) (clock (ks j)) body

namespace Peer

variable {clock : ℕ → UInt64} {log mlock : Bool} {scratch : B32} {rnd : Rnd} {input : Bytes} {s : PRun}

/-- What the header of a message depends on. -/
def ident (c : PeerState) : UInt8 × UInt8 × B32 × B64 := (c.n, c.index, c.sid, c.sigSk)

/-- One more message of a batch. -/
theorem batch_next {s' : PRun} {msgno : UInt8} {i k : ℕ} {m : Option Bytes} {c1 : PeerState}
    (hm : ∀ b, m = some b → b.length = 48) (hid : ident s'.ctx = ident s.ctx) (ho : (i + 1) * 159 ≤ s'.out.length)
    (htk : s.ctx.ticks ≤ s'.ctx.ticks) (hb : Batch clock s.ctx s'.ctx msgno s'.out i) (h1 : c1.ticks = s'.ctx.ticks + k + 1) :
    let o := splice (spliceOpt s'.out (i * 159 + 111) m) (i * 159) (header s'.ctx (clock (s'.ctx.ticks + k)) 159 msgno (idx i))
    o.length = s'.out.length ∧ Batch clock s.ctx c1 msgno o (i + 1) := by
  intro o
  simp only [ident, Prod.mk.injEq] at hid
  obtain ⟨-, ei, es, ek⟩ := hid
  -- the body is either new or what was in the buffer
  obtain ⟨b, hbl, hso⟩ : ∃ b : Bytes, b.length = 48 ∧ spliceOpt s'.out (i * 159 + 111) m = splice s'.out (i * 159 + 111) b := by
    cases m with
    | some b => exact ⟨b, hm b rfl, rfl⟩
    | none =>
      refine ⟨slice s'.out (i * 159 + 111) 48, slice_length (by omega), ?_⟩
      show s'.out = _
      unfold splice slice
      rw [List.length_take, List.length_drop, Nat.min_eq_left (by omega), ← List.drop_drop (i := 48) (j := i * 159 + 111), List.append_assoc,
        List.take_append_drop, List.take_append_drop]
  obtain ⟨p1, p2⟩ := Honest.put_msg (out := s'.out) (i := i) (sz := 159) (m := b)
    (header_length s'.ctx (clock (s'.ctx.ticks + k)) 159 msgno (idx i)) (by rw [hbl]) (by omega)
  rw [header_append _ _ _ _ _ _ (by rw [hbl])] at p1
  have hod : o = splice (splice s'.out (i * 159 + 111) b) (i * 159)
      (header s'.ctx (clock (s'.ctx.ticks + k)) 159 msgno (idx i)) := by show splice _ _ _ = _; rw [hso]
  rw [← hod] at p1 p2
  obtain ⟨ks, ⟨hk1, hk2⟩, hd⟩ := hb
  refine ⟨p2, fun j => if j = i then s'.ctx.ticks + k else ks j, ⟨?_, ?_⟩, ?_⟩
  · intro j hj
    dsimp only
    split
    · omega
    · have := hk1 j (by omega)
      omega
  · intro a b hab hb
    dsimp only
    rw [if_neg (by omega)]
    split
    · have := hk1 a (by omega)
      omega
    · exact hk2 a b hab (by omega)
  · intro j hj
    dsimp only
    rcases Nat.lt_or_eq_of_le (Nat.le_of_lt_succ hj) with hj | rfl
    · rw [if_neg (by omega)]
      obtain ⟨body, q1, q2⟩ := hd j hj
      refine ⟨body, q1, ?_⟩
      have hj1 : (j + 1) * 159 ≤ i * 159 := Nat.mul_le_mul_right _ hj
      rw [← q2, hod, slice_splice_before, slice_splice_before]
      · rw [hbl]; omega
      · omega
      · rw [splice_length (by rw [hbl]; omega), header_length]; omega
      · omega
    · rw [if_pos rfl]
      refine ⟨b, hbl, ?_⟩
      rw [slice_last p1 (by rw [List.length_take]; omega)]
      unfold signedBy
      rw [ei, es, ek]

theorem ok_step5 (w : PWF s.ctx) (hin : input.length = 175 * s.ctx.n.toNat + 111) (hout : s.out.length = 159 * s.ctx.n.toNat) :
    Wp (step5 clock log rnd input) True Bad (fun _ s' => s'.out.length = 159 * s.ctx.n.toNat ∧
      Batch clock s.ctx s'.ctx 4 s'.out s.ctx.n.toNat) s := by
  refine wp_step5 rfl hin hout (fun m s' => ident s'.ctx = ident s.ctx ∧ s'.out.length = 159 * s.ctx.n.toNat ∧
    s'.ctx.lastTs.length = s.ctx.n.toNat ∧ s'.ctx.sigPks.length = s.ctx.n.toNat ∧ s'.ctx.noisePks.length = s.ctx.n.toNat ∧
    s'.ctx.outs.length = s.ctx.n.toNat ∧ (∃ dv, s'.ctx.dev = .live dv) ∧
    s.ctx.ticks ≤ s'.ctx.ticks ∧ Batch clock s.ctx s'.ctx 4 s'.out m) ?_ ?_ ?_ ?_
  · intro r last k hr h0
    have := recvMsg_range hr
    show (32 + r : Int) ≠ 0
    omega
  · intro last k hr
    exact ⟨rfl, hout, w.lastTs, w.sigPks, w.noisePks, w.outs, ⟨_, rfl⟩, Nat.le_add_right _ _, fun _ => 0,
      ⟨fun j hj => absurd hj (Nat.not_lt_zero j), fun i j _ hj => absurd hj (Nat.not_lt_zero j)⟩,
      fun j hj => absurd hj (Nat.not_lt_zero j)⟩
  · rintro i s' hi ⟨hid, ho, l1, l2, l3, l4, ⟨dv, hdv⟩, htk, hb⟩
    have h1 : (i + 1) * 175 ≤ s.ctx.n.toNat * 175 := Nat.mul_le_mul_right _ hi
    have h2 : (i + 1) * 159 ≤ s.ctx.n.toNat * 159 := Nat.mul_le_mul_right _ hi
    refine wp_step5Body (dv := dv) (by omega) (by omega) (by omega) (by omega) (by omega) (by omega) hdv ?_ ?_
    · intro r last k hr h0
      have := recvMsg_range hr
      show (64 + r : Int) ≠ 0
      omega
    · intro last k hr
      obtain ⟨q1, q2⟩ := batch_next (s := s) (s' := s') (msgno := 4) (i := i) (k := k) (clock := clock)
        (m := (initNoise dv (s'.ctx.outs[i]'(by omega)) (npk2 input i) (rnd.einit i)).2.2.2)
        (c1 := (after5 clock rnd input dv (s'.ctx.outs[i]'(by omega)) i last k s').ctx)
        (fun b hb => initNoise_length hb) hid (by omega) htk hb rfl
      refine ⟨hid, q1.trans ho, ?_, ?_, ?_, ?_, ⟨_, rfl⟩, ?_, q2⟩
      · simp [after5, received, l1]
      · simp [after5, l2]
      · simp [after5, l3]
      · simp [after5, l4]
      · show s.ctx.ticks ≤ s'.ctx.ticks + k + 1
        omega
  · rintro s' ⟨-, ho, -, -, -, -, -, -, hb⟩
    exact ⟨ho, hb⟩

theorem ok_step7 (w : PWF s.ctx) (hin : input.length = 159 * s.ctx.n.toNat) (hout : s.out.length = 159 * s.ctx.n.toNat) :
    Wp (step7 clock log rnd input) True Bad (fun _ s' => s'.out.length = 159 * s.ctx.n.toNat ∧
      Batch clock s.ctx s'.ctx 5 s'.out s.ctx.n.toNat) s := by
  refine wp_step7 rfl hin hout (fun m s' => ident s'.ctx = ident s.ctx ∧ s'.out.length = 159 * s.ctx.n.toNat ∧
    s'.ctx.lastTs.length = s.ctx.n.toNat ∧ s'.ctx.sigPks.length = s.ctx.n.toNat ∧
    s'.ctx.ins.length = s.ctx.n.toNat ∧
    s.ctx.ticks ≤ s'.ctx.ticks ∧ Batch clock s.ctx s'.ctx 5 s'.out m) ?_ ?_ ?_
  · exact ⟨rfl, hout, w.lastTs, w.sigPks, w.ins, Nat.le_refl _, fun _ => 0,
      ⟨fun j hj => absurd hj (Nat.not_lt_zero j), fun i j _ hj => absurd hj (Nat.not_lt_zero j)⟩,
      fun j hj => absurd hj (Nat.not_lt_zero j)⟩
  · rintro i s' hi ⟨hid, ho, l1, l2, l3, htk, hb⟩
    have h2 : (i + 1) * 159 ≤ s.ctx.n.toNat * 159 := Nat.mul_le_mul_right _ hi
    by_cases hdv : ∃ dv, s'.ctx.dev = .live dv
    · obtain ⟨dv, hdv⟩ := hdv
      refine wp_step7Body (dv := dv) (by omega) (by omega) (by omega) (by omega) (by omega) hdv ?_ ?_
      · intro r last k hr h0
        have := recvMsg_range hr
        show (64 + r : Int) ≠ 0
        omega
      · intro last k hr
        obtain ⟨q1, q2⟩ := batch_next (s := s) (s' := s') (msgno := 5) (i := i) (k := k) (clock := clock)
          (m := (respondNoise dv (hsMsg input i) (rnd.eresp i)).2.2.2)
          (c1 := (after7 clock rnd input dv i last k s').ctx)
          (fun b hb => respondNoise_length hb) hid (by omega) htk hb rfl
        refine ⟨hid, q1.trans ho, ?_, ?_, ?_, ?_, q2⟩
        · simp [after7, received, l1]
        · simp [after7, received, l2]
        · simp [after7, l3]
        · show s.ctx.ticks ≤ s'.ctx.ticks + k + 1
          omega
    · unfold step7Body
      dsimp only [hdrSize, msg4Size, msg5Size]
      rw [wp_bind, wp_dump (by omega), wp_bind, wp_sigPkOf (by omega), wp_bind, wp_get, wp_bind]
      refine wp_recv (by omega) (by omega) (by omega) fun r last k hr => ?_
      rw [wp_ite]
      refine ⟨fun h0 => ?_, fun h0 => ?_⟩
      · have := recvMsg_range hr
        show (64 + r : Int) ≠ 0
        omega
      rw [wp_bind, wp_lift_ok (rd_slice' (by omega)), wp_bind]
      unfold respondSession getDev
      rw [wp_bind, wp_bind, wp_get, wp_bind]
      refine wp_lift_of trivial fun a ha => ?_
      cases a with
      | none => exact (wp_lift _).2 trivial
      | some dv =>
        exfalso
        refine hdv ⟨dv, ?_⟩
        change s'.ctx.dev.deref = _ at ha
        cases hd : s'.ctx.dev with
        | live x => rw [hd] at ha; simp only [Ptr.deref, C.ok.injEq, Option.some.injEq] at ha; rw [ha]
        | null => rw [hd] at ha; simp [Ptr.deref] at ha
        | freed => rw [hd] at ha; simp [Ptr.deref] at ha
        | uninit => rw [hd] at ha; simp [Ptr.deref] at ha
  · rintro s' ⟨-, ho, -, -, -, -, hb⟩
    exact ⟨ho, hb⟩

/-- The message of step 2: the header, both new keys, and a signature with the long-term key. -/
theorem ok_step23 (hin : input.length = 111) (hout : s.out.length = 239) :
    Wp (step23 clock log rnd input) True Bad (fun _ s' => s'.ctx.sigSk = Signing.skOf rnd.seed ∧
      s'.ctx.index = input.getD 70 0 ∧ ∃ k, s.ctx.ticks ≤ k ∧ k < s'.ctx.ticks ∧ ∃ npk : B32, ∃ sig : B64,
        s'.out = signedBy s'.ctx 2 0xff (clock k) ((Signing.pkOf rnd.seed).toList ++ npk.toList) ++ sig.toList) s := by
  refine wp_step23 hin hout (fun r last k hr h0 => ?_) (fun _ _ _ _ => (by decide : (3 : Int) ≠ 0)) fun last k _ _ _ => ?_
  · have := recvMsg_range hr
    show (4 + r : Int) ≠ 0
    omega
  · refine ⟨rfl, rfl, s.ctx.ticks + k, by omega, by show _ < s.ctx.ticks + k + 1; omega, NoiseCrypto.xbase rnd.noiseSk,
      Signing.sign s.ctx.ltSk (msg2 (ctx23 s.ctx rnd (input.getD 70 0) last k) (clock (s.ctx.ticks + k))), ?_⟩
    show _ ++ _ = _
    congr 1
    unfold msg2 signedBy
    rw [show UInt32.ofNat (111 + ((Signing.pkOf rnd.seed).toList ++ (NoiseCrypto.xbase rnd.noiseSk).toList).length) = 175 from by
      simp]
    rfl

/-- The last message. -/
theorem ok_step21 : Wp (step21 clock log input) True Bad (fun _ s' => ∃ k, s.ctx.ticks ≤ k ∧ k < s'.ctx.ticks ∧
      ∃ body : Bytes, body.length = 2 ∧ s'.out = signedBy s.ctx 22 0 (clock k) body) s := by
  unfold step21
  rw [wp_bind, wp_get, wp_ite]
  refine ⟨fun _ => (by decide : (1 : Int) ≠ 0), fun hl => ?_⟩
  rw [wp_ite]
  refine ⟨fun _ => (by decide : (2 : Int) ≠ 0), fun ho => ?_⟩
  simp only [not_not, msg20Size, msg21Size] at hl ho
  rw [wp_bind, wp_dump (by omega), wp_bind]
  refine wp_recvTp (by omega) fun r last k hr => ?_
  rw [wp_ite]
  refine ⟨fun h0 => ?_, fun h0 => ?_⟩
  · have := recvMsg_range hr
    show (4 + r : Int) ≠ 0
    omega
  rw [wp_bind, wp_lift_ok (rd_slice' (by simp only [hdrSize]; omega)), wp_ite]
  refine ⟨fun hd => ?_, fun _ => (by decide : (4 : Int) ≠ 0)⟩
  rw [wp_bind, wp_get, wp_bind]
  refine wp_lift_of trivial fun x hx => ?_
  have hl2 : (slice input hdrSize 2).length = 2 := by rw [hd]; rfl
  rw [wp_bind, wp_setCtx, wp_bind, wp_setOut (by rw [hl2]; show _ ≤ s.out.length; simp only [hdrSize]; omega), wp_bind,
    wp_send (by
      show _ ≤ (splice s.out _ _).length
      rw [splice_length (by rw [hl2]; simp only [hdrSize]; omega)]; omega), wp_bind]
  have e : (splice s.out hdrSize (slice input hdrSize 2)).length = s.out.length :=
    splice_length (by rw [hl2]; simp only [hdrSize]; omega)
  rw [wp_dumpOut (by
    show _ ≤ (splice _ _ _).length
    rw [splice_length (by rw [header_length]; show _ ≤ (splice s.out _ _).length; omega)]
    show _ ≤ (splice s.out _ _).length
    rw [e, msg21Size]; omega)]
  refine ⟨s.ctx.ticks + k, by omega, by show _ < s.ctx.ticks + k + 1; omega, slice input hdrSize 2, hl2, ?_⟩
  rw [← header_append _ _ _ _ _ 113 (by rw [hl2])]
  have hh := header_length s.ctx (clock (s.ctx.ticks + k)) 113 22 0
  show splice (splice s.out hdrSize (slice input hdrSize 2)) 0 (header s.ctx (clock (s.ctx.ticks + k)) 113 22 0) = _
  unfold splice
  rw [hh, hl2]
  have e2 : (s.out.take hdrSize).length = 111 := by simp [hdrSize, ho]
  rw [List.take_zero, List.nil_append, List.append_assoc (s.out.take hdrSize), List.drop_append, e2]
  simp [hdrSize, ho, List.drop_of_length_le]

/-- The clock is read, never set back. -/
def Later (s s' : PRun) : Prop := s.ctx.ticks ≤ s'.ctx.ticks

theorem later_refl (s : PRun) : Later s s := Nat.le_refl _

theorem later_trans (a b c : PRun) (h : Later a b) (h' : Later b c) : Later a c := Nat.le_trans h h'

theorem later_recv (off len : ℕ) (msgno rcp : UInt8) (pk : B32) (i : ℕ) :
    Pres Later (fun r => 0 ≤ r ∧ r ≤ 7) (recv clock input off len msgno rcp pk i) := by
  intro s
  unfold recv
  rw [wp_bind, wp_get, wp_bind]
  refine wp_lift_of trivial fun last hl => ?_
  rw [wp_bind]
  refine wp_lift_of trivial fun x hx => ?_
  obtain ⟨r, last, k⟩ := x
  dsimp only
  rw [wp_bind]
  refine wp_lift_of trivial fun lt hlt => ?_
  rw [wp_bind, wp_setCtx, wp_pure]
  exact ⟨Nat.le_add_right _ _, recvMsg_range hx⟩

theorem later_recvTp (msgno rcp : UInt8) : Pres Later (fun r => 0 ≤ r ∧ r ≤ 7) (recvTp clock input msgno rcp) := by
  intro s
  unfold recvTp
  rw [wp_bind, wp_get, wp_bind]
  refine wp_lift_of trivial fun x hx => ?_
  obtain ⟨r, last, k⟩ := x
  dsimp only
  rw [wp_bind, wp_setCtx, wp_pure]
  exact ⟨Nat.le_add_right _ _, recvMsg_range hx⟩

theorem later_keep {α : Type} {V : α → Prop} {m : H PRun α} (h : Pres (Keep fun c => c.ticks) V m) : Pres Later V m :=
  fun s => (h s).mono id (fun _ _ h => Nat.le_of_eq h.1.symm) fun _ _ h => ⟨Nat.le_of_eq h.1.1.symm, h.2⟩

theorem later_step17 : Pres Later (fun _ => True) (step17 clock log input) := by
  have hr := later_refl
  have ht := later_trans
  unfold step17 step17Body step17Inner transcript
  repeat' first
  | with_reducible exact pres_ret hr _
  | with_reducible exact later_keep (pres_dump _ _ _ _)
  | with_reducible exact later_keep (pres_sigPkOf _)
  | with_reducible exact later_keep (pres_addComplaint (fun _ _ _ _ => rfl) _)
  | with_reducible exact later_keep (pres_addMine (fun _ _ _ _ => rfl) _)
  | with_reducible exact later_keep (pres_setCtx fun _ => rfl)
  | with_reducible exact later_recv _ _ _ _ _ _
  | with_reducible exact later_recvTp _ _
  | with_reducible exact pres_get hr
  | with_reducible exact pres_pure (V := fun _ => True) hr trivial
  | with_reducible exact pres_lift' hr
  | with_reducible refine pres_ite (fun hc => ?_) fun hc => ?_
  | with_reducible refine pres_forN hr ht fun i hi => ?_
  | with_reducible apply pres_bind ht
  | intro a ha

end Peer

end Verif.TpDkg
