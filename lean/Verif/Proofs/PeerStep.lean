import Verif.Proofs.PeerFrame

/-!
# Lemmas about whole steps of a peer
-/

set_option linter.unusedSectionVars false

namespace Verif.TpDkg.Peer

open H Wire Spec.Wire

variable [Signing] [Hashes] [NoiseCrypto]
variable {U : Prop} {E : Int → PRun → Prop} {Q : Int → PRun → Prop} {s : PRun} {clock : ℕ → UInt64} {log : Bool} {rnd : Rnd}
  {input : Bytes}

theorem splice_zero {α : Type} {b a c : List α} (h : a.length = c.length) : splice (a ++ b) 0 c = c ++ b := by
  unfold splice
  rw [List.take_zero, List.nil_append, Nat.zero_add, ← h, List.drop_left]

/-- The first message of a peer. -/
def msg2 (c : PeerState) (now : UInt64) : Bytes :=
  encode (Signing.sign c.sigSk (Header.mk 2 175 c.index 0xff now c.sid).encode) ⟨2, 175, c.index, 0xff, now, c.sid⟩
    (c.sigPk.toList ++ c.noisePk.toList)

/-- The context after step 2. -/
def ctx23 (c : PeerState) (rnd : Rnd) (index : UInt8) (last : UInt64) (k : ℕ) : PeerState :=
  { receivedTp c last k with
    index := index
    sigPk := Signing.pkOf rnd.seed
    sigSk := Signing.skOf rnd.seed
    noiseSk := rnd.noiseSk
    noisePk := NoiseCrypto.xbase rnd.noiseSk
    ltSk := Vector.replicate 64 0
    ticks := c.ticks + k + 1 }

theorem wp_step23 (hin : input.length = 111) (hout : s.out.length = 239)
    (hE : ∀ r last k, recvMsg (clock s.ctx.ticks) input 0 111 1 0 (input.getD 70 0) s.ctx.tpSigPk s.ctx.sid
      s.ctx.eps s.ctx.tpLastTs = .ok (r, last, k) → r ≠ 0 → E (4 + r) { s with ctx := receivedTp s.ctx last k })
    (hE' : ∀ last k, recvMsg (clock s.ctx.ticks) input 0 111 1 0 (input.getD 70 0) s.ctx.tpSigPk s.ctx.sid
      s.ctx.eps s.ctx.tpLastTs = .ok (0, last, k) → ¬ (1 ≤ (input.getD 70 0).toNat ∧ (input.getD 70 0).toNat ≤ 128) →
      E 3 { s with ctx := receivedTp s.ctx last k })
    (hQ : ∀ last k, recvMsg (clock s.ctx.ticks) input 0 111 1 0 (input.getD 70 0) s.ctx.tpSigPk s.ctx.sid
      s.ctx.eps s.ctx.tpLastTs = .ok (0, last, k) → 1 ≤ (input.getD 70 0).toNat → (input.getD 70 0).toNat ≤ 128 →
      Q 0 { ctx := ctx23 s.ctx rnd (input.getD 70 0) last k
            out := let m := msg2 (ctx23 s.ctx rnd (input.getD 70 0) last k) (clock (s.ctx.ticks + k))
              m ++ (Signing.sign s.ctx.ltSk m).toList }) :
    Wp (step23 clock log rnd input) U E Q s := by
  unfold step23
  have hld : ld input 70 = .ok (input.getD 70 0) := by
    rw [ld_ok (by omega), List.getD_eq_getElem?_getD, List.getElem?_eq_getElem (by omega)]; rfl
  rw [wp_bind, wp_get]
  rw [wp_ite]
  refine ⟨fun h => absurd hin h, fun _ => ?_⟩
  rw [wp_ite]
  refine ⟨fun h => absurd hout h, fun _ => ?_⟩
  dsimp only [msg1Size, msg2Size, hdrSize]
  rw [wp_bind, wp_dump (by omega), wp_bind, wp_lift_ok hld, wp_bind]
  refine wp_recvTp (by omega) fun r last k hr => ?_
  rw [hin] at hr
  rw [wp_ite]
  refine ⟨fun h0 => hE r last k hr h0, fun h0 => ?_⟩
  have h0 : r = 0 := by simpa using h0
  subst h0
  have e1 : UInt8.toNat 1 = 1 := rfl
  have e128 : UInt8.toNat 128 = 128 := rfl
  rw [wp_ite]
  refine ⟨fun h => hE' last k hr ?_, fun h => ?_⟩
  · simp only [gt_iff_lt, UInt8.lt_iff_toNat_lt, e1, e128] at h
    omega
  simp only [gt_iff_lt, UInt8.lt_iff_toNat_lt, e1, e128, not_or, not_lt] at h
  rw [wp_bind, wp_setCtx, wp_bind, wp_setOut (by simp [hout]), wp_bind, wp_setOut (by rw [splice_length] <;> simp [hout]),
    wp_bind, wp_send (by rw [splice_length, splice_length] <;> (try rw [splice_length]) <;> simp [hout])]
  dsimp only
  set c0 := ctx23 s.ctx rnd (input.getD 70 0) last k with hc0
  set m := msg2 c0 (clock (s.ctx.ticks + k)) with hm
  have key : ∀ {pk npk hd : Bytes}, pk.length = 32 → npk.length = 32 → hd.length = 111 →
      splice (splice (splice s.out 111 pk) (111 + 32) npk) 0 hd = hd ++ (pk ++ npk) ++ s.out.drop 175 := by
    intro pk npk hd h1 h2 h3
    have d1 : (s.out.take 111).drop 175 = [] := List.drop_of_length_le (by simp)
    have d2 : pk.drop 64 = [] := List.drop_of_length_le (by omega)
    unfold splice
    simp [h1, h2, h3, hout, d1, d2, List.take_append, List.drop_append, List.take_of_length_le]
  rw [key (by simp) (by simp) (header_length _ _ _ _ _)]
  have hm' : m = header { (receivedTp s.ctx last k) with
        index := input.getD 70 0
        sigPk := Signing.pkOf rnd.seed
        sigSk := Signing.skOf rnd.seed
        noiseSk := rnd.noiseSk
        noisePk := NoiseCrypto.xbase rnd.noiseSk } (clock (s.ctx.ticks + k)) 175 2 255 ++
      ((Signing.pkOf rnd.seed).toList ++ (NoiseCrypto.xbase rnd.noiseSk).toList) := by
    unfold header
    rw [hm]
    show encode _ _ _ = encode _ _ _ ++ _
    unfold encode
    simp
    rfl
  have hml : m.length = 175 := by rw [hm]; unfold msg2; rw [encode_length]; simp
  show Wp _ U E Q ⟨_, header _ (clock (s.ctx.ticks + k)) 175 2 255 ++ _ ++ _⟩
  rw [← hm', wp_bind, wp_get, wp_bind, wp_lift_ok (a := m) (by
    rw [rd_ok (by simp; omega), List.drop_zero, List.take_left' hml]), wp_bind]
  rw [wp_setOut (by simp [hml, hout]), wp_bind, wp_setCtx, wp_bind, wp_dumpOut (by
    dsimp only; rw [splice_length] <;> simp [hml, hout]), wp_pure]
  have := hQ last k hr h.2 h.1
  convert this using 2
  · rfl
  · show splice (m ++ s.out.drop 175) 175 (Signing.sign s.ctx.ltSk m).toList = m ++ (Signing.sign s.ctx.ltSk m).toList
    have d : (m ++ s.out.drop 175).drop (175 + (Signing.sign s.ctx.ltSk m).toList.length) = [] :=
      List.drop_of_length_le (by simp [hml, hout])
    unfold splice
    rw [List.take_left' hml, d, List.append_nil]


/-! ### Steps with loops: `I i` holds before iteration `i` -/

theorem wp_step5 {n : ℕ} (hn : s.ctx.n.toNat = n) (hin : input.length = 175 * n + 111) (hout : s.out.length = 159 * n)
    (I : ℕ → PRun → Prop)
    (hE : ∀ r last k, recvMsg (clock s.ctx.ticks) input 0 input.length 3 0 0xff s.ctx.tpSigPk s.ctx.sid s.ctx.eps
      s.ctx.tpLastTs = .ok (r, last, k) → r ≠ 0 → E (32 + r) { s with ctx := receivedTp s.ctx last k })
    (h0 : ∀ last k, recvMsg (clock s.ctx.ticks) input 0 input.length 3 0 0xff s.ctx.tpSigPk s.ctx.sid s.ctx.eps
      s.ctx.tpLastTs = .ok (0, last, k) → I 0 { s with ctx := { receivedTp s.ctx last k with
        transcript := updateTranscript s.ctx.transcript input
        dev := .live (Noise.deviceCreate prologue s.ctx.noiseSk) } })
    (hb : ∀ i s', i < n → I i s' → Wp (step5Body clock log rnd input i) U E (fun _ s'' => I (i + 1) s'') s')
    (hQ : ∀ s', I n s' → Q 0 s') : Wp (step5 clock log rnd input) U E Q s := by
  unfold step5
  rw [wp_bind, wp_get]
  dsimp only
  rw [hn]
  rw [wp_ite]
  refine ⟨fun h => absurd hin h, fun _ => ?_⟩
  rw [wp_ite]
  refine ⟨fun h => absurd hout h, fun _ => ?_⟩
  rw [wp_bind]
  refine wp_recvTp (by omega) fun r last k hr => ?_
  rw [wp_ite]
  refine ⟨fun h => hE r last k hr h, fun h => ?_⟩
  have h : r = 0 := by simpa using h
  subst h
  rw [wp_bind, wp_transcript, wp_bind, wp_setCtx, wp_bind]
  exact wp_forN I (h0 last k hr) hb hQ

theorem wp_step7 {n : ℕ} (hn : s.ctx.n.toNat = n) (hin : input.length = 159 * n) (hout : s.out.length = 159 * n)
    (I : ℕ → PRun → Prop) (h0 : I 0 s)
    (hb : ∀ i s', i < n → I i s' → Wp (step7Body clock log rnd input i) U E (fun _ s'' => I (i + 1) s'') s')
    (hQ : ∀ s', I n s' → Q 0 s') : Wp (step7 clock log rnd input) U E Q s := by
  unfold step7
  rw [wp_bind, wp_get]
  dsimp only
  rw [hn]
  rw [wp_ite]
  refine ⟨fun h => absurd hin h, fun _ => ?_⟩
  rw [wp_ite]
  refine ⟨fun h => absurd hout h, fun _ => ?_⟩
  rw [wp_bind]
  exact wp_forN I h0 hb hQ

section Deal

variable [Mac] (G : Type) [Ristretto G] {mlock : Bool}

/-- The message with the commitments. -/
def msg6 (c : PeerState) (now : UInt64) (cs : List B32) : Bytes :=
  encode (Signing.sign c.sigSk (Header.mk 6 (UInt32.ofNat (msg6Size c.t)) c.index 0xff now c.sid).encode)
    ⟨6, UInt32.ofNat (msg6Size c.t), c.index, 0xff, now, c.sid⟩ (flat cs)

theorem flat_length (cs : List B32) : (flat cs).length = 32 * cs.length := by
  unfold flat
  induction cs with
  | nil => rfl
  | cons a cs ih => rw [List.flatMap_cons, List.length_append, ih]; simp; omega

theorem commitLoop_length {rnd : ℕ → B32} : ∀ {m k : ℕ} {cs cs' : List B32},
    Dkg.commitLoop G rnd m k cs = .ok cs' → cs'.length = cs.length
  | 0, _, _, _, h => by cases h; rfl
  | m + 1, k, cs, cs', h => by
    unfold Dkg.commitLoop at h
    rw [C.bind_eq_ok] at h
    obtain ⟨x, hx, h⟩ := h
    rw [commitLoop_length h, st_length hx]

theorem dkg_start_commitments {n t : UInt8} {coeff : ℕ → B32} {c0 : List B32} {s0 : List Share} {r : Int} {cs : List B32}
    {ss : List Share} (h : Dkg.start G mlock n t coeff c0 s0 = .ok (r, cs, ss)) : cs.length = c0.length := by
  unfold Dkg.start at h
  split at h
  · cases h
  split at h
  · cases h; rfl
  rw [C.bind_eq_ok] at h
  obtain ⟨_, h1, h⟩ := h
  rw [C.bind_eq_ok] at h
  obtain ⟨x, hx, h⟩ := h
  cases h
  exact commitLoop_length G h1

theorem encode_nil_append (sig : B64) (h : Header) (b : Bytes) : encode sig h [] ++ b = encode sig h b := by
  unfold encode
  simp

theorem wp_step911 {n : ℕ} (hn : s.ctx.n.toNat = n) (hin : input.length = 159 * n)
    (hout : s.out.length = 111 + 32 * s.ctx.t.toNat)
    (I : ℕ → PRun → Prop) (h0 : I 0 s)
    (hb : ∀ i s', i < n → I i s' → Wp (step911Body clock log input i) U E (fun _ s'' => I (i + 1) s'') s')
    (hI : ∀ s', I n s' → s'.out = s.out ∧ s'.ctx.n = s.ctx.n ∧ s'.ctx.t = s.ctx.t)
    (hQ : ∀ s', I n s' → ∃ r cs ss,
      Dkg.start G mlock s.ctx.n s.ctx.t rnd.coeff (List.replicate s.ctx.t.toNat zero32) s'.ctx.shares = .ok (r, cs, ss) ∧
      (r ≠ 0 → E 4 s') ∧
      (r = 0 → Q 0 { ctx := { s'.ctx with shares := ss, ticks := s'.ctx.ticks + 1 }
                     out := msg6 s'.ctx (clock s'.ctx.ticks) cs })) :
    Wp (step911 G clock log mlock rnd input) U E Q s := by
  unfold step911
  rw [wp_bind, wp_get]
  dsimp only
  rw [hn]
  rw [wp_ite]
  refine ⟨fun h => absurd hin h, fun _ => ?_⟩
  rw [wp_ite]
  refine ⟨fun h => absurd hout h, fun _ => ?_⟩
  rw [wp_bind]
  refine wp_forN I h0 hb fun s' hs' => ?_
  obtain ⟨e1, e2, e3⟩ := hI s' hs'
  obtain ⟨r, cs, ss, hd, q1, q2⟩ := hQ s' hs'
  have hcl := dkg_start_commitments G hd
  rw [List.length_replicate] at hcl
  rw [wp_bind, wp_get]
  rw [wp_bind, wp_lift_ok (a := (r, cs, ss)) (by rw [e2]; exact hd)]
  dsimp only
  rw [wp_ite]
  refine ⟨fun h => q1 h, fun h => ?_⟩
  have hfl : (flat cs).length = 32 * s.ctx.t.toNat := by rw [flat_length, hcl]
  have hol : s'.out.length = 111 + 32 * s.ctx.t.toNat := by rw [e1, hout]
  rw [wp_bind, wp_setCtx, wp_bind, wp_setOut (by rw [hfl]; show _ ≤ s'.out.length; simp only [hdrSize]; omega), wp_bind,
    wp_send (by
      show _ ≤ (splice s'.out _ _).length
      rw [splice_length (by rw [hfl, hol]; simp only [hdrSize]; omega)]; omega), wp_bind]
  have e : (splice s'.out hdrSize (flat cs)).length = s'.out.length :=
    splice_length (by rw [hfl, hol]; simp only [hdrSize]; omega)
  rw [wp_dumpOut (by
    show _ ≤ (splice _ _ _).length
    rw [splice_length (by rw [header_length]; show _ ≤ (splice s'.out _ _).length; omega)]
    show _ ≤ (splice s'.out _ _).length
    rw [e, hol, msg6Size]; omega)]
  rw [wp_pure]
  have := q2 (by simpa using h)
  convert this using 2
  show splice (splice s'.out 111 (flat cs)) 0 (header s'.ctx (clock s'.ctx.ticks) (msg6Size s.ctx.t) 6 255) = _
  have hh := header_length s'.ctx (clock s'.ctx.ticks) (msg6Size s.ctx.t) 6 255
  have e5 : splice s'.out 111 (flat cs) = s'.out.take 111 ++ flat cs := by
    unfold splice
    rw [List.drop_of_length_le (by omega), List.append_nil]
  rw [e5, splice_zero (by rw [hh]; simp; omega)]
  unfold header msg6
  rw [encode_nil_append, e3]

end Deal

theorem wp_step13 [Mac] {n : ℕ} (hn : s.ctx.n.toNat = n) (hin : input.length = 111 + msg6Size s.ctx.t * n)
    (hout : s.out.length = n * 256) (I : ℕ → PRun → Prop)
    (hE : ∀ r last k, recvMsg (clock s.ctx.ticks) input 0 input.length 7 0 0xff s.ctx.tpSigPk s.ctx.sid s.ctx.eps
      s.ctx.tpLastTs = .ok (r, last, k) → r ≠ 0 → E (32 + r) { s with ctx := receivedTp s.ctx last k })
    (h0 : ∀ last k, recvMsg (clock s.ctx.ticks) input 0 input.length 7 0 0xff s.ctx.tpSigPk s.ctx.sid s.ctx.eps
      s.ctx.tpLastTs = .ok (0, last, k) → I 0 { s with ctx := { receivedTp s.ctx last k with
        transcript := updateTranscript s.ctx.transcript input } })
    (hb : ∀ i s', i < n → I i s' → Wp (step13Body clock log input s.ctx.t i) U E (fun _ s'' => I (i + 1) s'') s')
    (hQ : ∀ s', I n s' → Q 0 s') : Wp (step13 clock log input) U E Q s := by
  unfold step13
  rw [wp_bind, wp_get]
  dsimp only
  rw [hn]
  rw [wp_ite]
  refine ⟨fun h => absurd hin h, fun _ => ?_⟩
  rw [wp_ite]
  refine ⟨fun h => absurd hout h, fun _ => ?_⟩
  rw [wp_bind, wp_dump (by omega), wp_bind]
  refine wp_recvTp (by omega) fun r last k hr => ?_
  rw [wp_ite]
  refine ⟨fun h => hE r last k hr h, fun h => ?_⟩
  have h : r = 0 := by simpa using h
  subst h
  rw [wp_bind, wp_transcript, wp_bind]
  exact wp_forN I (h0 last k hr) hb hQ

section Verify

variable [Mac] (G : Type) [Ristretto G] {scratch : B32}

theorem verifyAll_length {n t self : UInt8} {css : List (List B32)} {shares : List Share} : ∀ {fuel : ℕ} {i : UInt8}
    {fails fails' : List UInt8} {len len' : UInt8} {r : Int},
    Dkg.verifyAll G scratch n t self css shares fuel i fails len = .ok (r, fails', len') →
    fails'.length = fails.length ∧ (len.toNat ≤ fails.length → len'.toNat ≤ fails.length)
  | 0, _, _, _, _, _, _, h => by cases h
  | fuel + 1, i, fails, fails', len, len', r, h => by
    unfold Dkg.verifyAll at h
    split at h
    · split at h
      · exact verifyAll_length h
      split at h
      · cases h
      simp only [C.bind_eq_ok] at h
      obtain ⟨cs, -, sh, -, ret, -, h⟩ := h
      split at h
      · cases h; exact ⟨rfl, fun h => h⟩
      split at h
      · exact verifyAll_length h
      rw [C.bind_eq_ok] at h
      obtain ⟨fs, h1, h⟩ := h
      have l1 := st_length h1
      obtain ⟨a, b⟩ := verifyAll_length h
      refine ⟨by rw [a, l1], fun hl => ?_⟩
      rw [l1] at b
      apply b
      have hlt : len.toNat < fails.length := by
        by_contra hc
        unfold st at h1
        rw [if_neg hc] at h1
        cases h1
      rw [UInt8.toNat_add]
      have : (len.toNat + UInt8.toNat 1) % 2 ^ 8 ≤ len.toNat + 1 := Nat.mod_le _ _
      omega
    · cases h; exact ⟨rfl, fun h => h⟩

/-- The message with the complaints. -/
def msg9 (c : PeerState) (now : UInt64) (len : UInt8) (fails : List UInt8) : Bytes :=
  encode (Signing.sign c.sigSk (Header.mk 9 (UInt32.ofNat (msg9Size c.n)) c.index 0xff now c.sid).encode)
    ⟨9, UInt32.ofNat (msg9Size c.n), c.index, 0xff, now, c.sid⟩ (len :: fails)

theorem wp_step15 {n : ℕ} (hn : s.ctx.n.toNat = n) (hin : input.length = n * 256)
    (hout : s.out.length = 111 + (n + 1))
    (I : ℕ → PRun → Prop) (h0 : I 0 s)
    (hb : ∀ i s', i < n → I i s' → Wp (step15Body clock log input i) U E (fun _ s'' => I (i + 1) s'') s')
    (hI : ∀ s', I n s' → s'.out = s.out ∧ s'.ctx.n = s.ctx.n ∧ s'.ctx.t = s.ctx.t ∧
      n * s.ctx.t.toNat ≤ s'.ctx.commitments.length)
    (hQ : ∀ s', I n s' → ∃ r fails len,
      Dkg.verifyCommitments G scratch s.ctx.n s.ctx.t s'.ctx.index
        (rows n s.ctx.t.toNat (s'.ctx.commitments.take (n * s.ctx.t.toNat))) s'.ctx.xshares
        (List.replicate n 0) = .ok (r, fails, len) ∧
      Q 0 { ctx := { s'.ctx with ticks := s'.ctx.ticks + 1 }
            out := msg9 s'.ctx (clock s'.ctx.ticks) len fails }) :
    Wp (step15 G clock log scratch input) U E Q s := by
  unfold step15
  rw [wp_bind, wp_get]
  dsimp only
  rw [hn]
  rw [wp_ite]
  refine ⟨fun h => absurd hin h, fun _ => ?_⟩
  rw [wp_ite]
  refine ⟨fun h => absurd (by rw [msg9Size, hn]; exact hout) h, fun _ => ?_⟩
  rw [wp_bind]
  refine wp_forN I h0 hb fun s' hs' => ?_
  obtain ⟨e1, e2, e3, e4⟩ := hI s' hs'
  obtain ⟨r, fails, len, hv, q⟩ := hQ s' hs'
  obtain ⟨hfl, hlen⟩ := verifyAll_length G hv
  rw [List.length_replicate] at hfl hlen
  have hlen : len.toNat ≤ n := hlen (Nat.zero_le _)
  have hol : s'.out.length = 111 + (n + 1) := by rw [e1, hout]
  have hs9 : msg9Size s'.ctx.n = 111 + (n + 1) := by rw [msg9Size, e2, hn]
  rw [wp_bind, wp_get]
  rw [wp_bind, wp_lift_ok (rd_slice' (by omega))]
  rw [wp_bind, wp_lift_ok (a := (r, fails, len)) (by
    rw [e2]
    unfold slice
    rw [List.drop_zero]
    exact hv)]
  dsimp only
  have e5 : (splice s'.out (hdrSize + 1) fails).length = s'.out.length :=
    splice_length (by simp only [hdrSize]; omega)
  have e6 : (splice (splice s'.out (hdrSize + 1) fails) hdrSize [len]).length = s'.out.length := by
    rw [splice_length (by rw [e5]; simp only [hdrSize, List.length_cons, List.length_nil]; omega), e5]
  rw [wp_bind, wp_setOut (by simp only [hdrSize]; omega), wp_bind, wp_setOut (by
      show _ ≤ (splice s'.out (hdrSize + 1) fails).length
      simp only [hdrSize, List.length_cons, List.length_nil]; simp only [hdrSize] at e5; omega), wp_bind,
    wp_dumpOut (by
      show _ ≤ (splice (splice s'.out (hdrSize + 1) fails) hdrSize [len]).length
      rw [e6]; simp only [hdrSize]; omega), wp_bind,
    wp_send (by
      show _ ≤ (splice (splice s'.out (hdrSize + 1) fails) hdrSize [len]).length
      rw [e6]; omega), wp_bind, wp_dumpOut (by
      show _ ≤ (splice _ _ _).length
      rw [splice_length (by
        rw [header_length]
        show _ ≤ (splice (splice s'.out (hdrSize + 1) fails) hdrSize [len]).length
        rw [e6]; omega)]
      show _ ≤ (splice (splice s'.out (hdrSize + 1) fails) hdrSize [len]).length
      rw [e6]; omega)]
  rw [wp_pure]
  convert q using 2
  show splice (splice (splice s'.out 112 fails) 111 [len]) 0 (header s'.ctx (clock s'.ctx.ticks) (msg9Size s'.ctx.n) 9 255) = _
  have hh := header_length s'.ctx (clock s'.ctx.ticks) (msg9Size s'.ctx.n) 9 255
  have e7 : splice s'.out 112 fails = s'.out.take 112 ++ fails := by
    unfold splice
    rw [List.drop_of_length_le (by omega), List.append_nil]
  have e8 : splice (s'.out.take 112 ++ fails) 111 [len] = s'.out.take 111 ++ (len :: fails) := by
    unfold splice
    rw [List.take_append_of_le_length (by simp; omega), List.take_take, List.drop_left' (by simp; omega)]
    simp
  rw [e7, e8, splice_zero (by rw [hh]; simp; omega)]
  unfold header msg9
  rw [encode_nil_append]

end Verify

theorem wp_step17 {n : ℕ} (hn : s.ctx.n.toNat = n) (hin : input.length = 111 + n * (111 + (n + 1)))
    (hout : s.out.length = 0) (I : ℕ → PRun → Prop)
    (hE : ∀ r last k, recvMsg (clock s.ctx.ticks) input 0 input.length 10 0 0xff s.ctx.tpSigPk s.ctx.sid s.ctx.eps
      s.ctx.tpLastTs = .ok (r, last, k) → r ≠ 0 → E (16 + r) { s with ctx := receivedTp s.ctx last k })
    (h0 : ∀ last k, recvMsg (clock s.ctx.ticks) input 0 input.length 10 0 0xff s.ctx.tpSigPk s.ctx.sid s.ctx.eps
      s.ctx.tpLastTs = .ok (0, last, k) → I 0 { s with ctx := { receivedTp s.ctx last k with
        transcript := updateTranscript s.ctx.transcript input } })
    (hb : ∀ i s', i < n → I i s' → Wp (step17Body clock log input s.ctx.n i) U E (fun _ s'' => I (i + 1) s'') s')
    (hQ : ∀ s', I n s' → s'.ctx.complaintsLen ≠ 0 → Q 0 s')
    (hQ' : ∀ s', I n s' → s'.ctx.complaintsLen = 0 →
      Q 0 { s' with ctx := { s'.ctx with prev := s'.ctx.step, step := s'.ctx.step + 1 } }) :
    Wp (step17 clock log input) U E Q s := by
  unfold step17
  rw [wp_bind, wp_get]
  dsimp only
  rw [wp_ite]
  refine ⟨fun h => absurd (by rw [msg10Size, msg9Size, hn]; exact hin) h, fun _ => ?_⟩
  rw [wp_ite]
  refine ⟨fun h => absurd hout h, fun _ => ?_⟩
  rw [wp_bind, wp_dump (by omega), wp_bind]
  refine wp_recvTp (by omega) fun r last k hr => ?_
  rw [wp_ite]
  refine ⟨fun h => hE r last k hr h, fun h => ?_⟩
  have h : r = 0 := by simpa using h
  subst h
  rw [wp_bind, wp_transcript, wp_bind]
  rw [hn]
  refine wp_forN I (h0 last k hr) hb fun s' hs' => ?_
  rw [wp_bind, wp_get]
  rw [wp_ite]
  refine ⟨fun h => ?_, fun h => hQ s' hs' h⟩
  rw [wp_bind, wp_setCtx, wp_pure]
  exact hQ' s' hs' h

end Verif.TpDkg.Peer
