import Verif.Proofs.Wire

/-!
# Properties C35, C36, C37, C56: messages of the TP-DKG protocol (`/repo/src/tp-dkg.c`)
-/

set_option linter.unusedSectionVars false

namespace Verif.Toy

/-- A signature that is the message itself, padded or cut to 64 bytes. -/
@[reducible] def signing : Signing where
  pkOf s := s
  skOf s := toB64 s.toList
  sign _ m := toB64 m
  verify _ m sig := sig == toB64 m
  verify_sign _ m := by simp

end Verif.Toy

namespace Verif.Props

open Spec.Wire Wire

/-! ## C35 -/

section
variable [Signing]

theorem checkTs_window {now eps last ts : UInt64} (hw : NoWrap now eps last) :
    (checkTs now eps last ts).1 = 0 ↔ InWindow now eps last ts := by
  unfold checkTs InWindow
  unfold NoWrap at hw
  by_cases h : last = 0
  · simp only [if_pos h] at hw ⊢
    obtain ⟨h1, h2⟩ := hw
    have e1 : (now - eps).toNat = now.toNat - eps.toNat := UInt64.toNat_sub_of_le _ _ h1
    have e2 : (now + eps).toNat = now.toNat + eps.toNat := by
      rw [UInt64.toNat_add]; exact Nat.mod_eq_of_lt h2
    simp only [gt_iff_lt, UInt64.lt_iff_toNat_lt, e1, e2]
    split
    · simp; omega
    · split
      · simp; omega
      · simp; omega
  · simp only [if_neg h] at hw ⊢
    have e2 : (last + eps).toNat = last.toNat + eps.toNat := by
      rw [UInt64.toNat_add]; exact Nat.mod_eq_of_lt hw
    simp only [gt_iff_lt, UInt64.lt_iff_toNat_lt, e2]
    split
    · simp; omega
    · split
      · simp; omega
      · simp; omega

theorem recvPure_zero {now : UInt64} {sig : B64} {h : Header} {len : ℕ} {msgno frm rcp : UInt8} {pk sid : B32}
    {eps last : UInt64} :
    (recvPure now sig h len msgno frm rcp pk sid eps last).1 = 0 ↔
      h.len.toNat = len ∧ h.msgno = msgno ∧ h.frm = frm ∧ h.rcp = rcp ∧ h.sid = sid ∧
        (checkTs now eps last h.ts).1 = 0 ∧ Signing.verify pk h.encode sig = true := by
  unfold recvPure
  repeat' split
  all_goals simp_all

/-- **C35.** A message is accepted exactly when it is a serialised message whose length, number, sender, recipient and
session are the expected ones, whose timestamp is in the window and whose signature over the header verifies. -/
theorem C35_accepted_iff (now : UInt64) (buf : Bytes) (off len : ℕ) (msgno frm rcp : UInt8) (pk sid : B32)
    (eps last : UInt64) (hb : off + len ≤ buf.length) (hl : 111 ≤ len) (hw : NoWrap now eps last) :
    ∃ r last' k, recvMsg now buf off len msgno frm rcp pk sid eps last = .ok (r, last', k) ∧
      (r = 0 ↔ ∃ sig h body, (buf.drop off).take len = encode sig h body ∧
        h.len.toNat = len ∧ h.msgno = msgno ∧ h.frm = frm ∧ h.rcp = rcp ∧ h.sid = sid ∧
        InWindow now eps last h.ts ∧ Signing.verify pk h.encode sig = true) := by
  obtain ⟨sig, h, body, e⟩ := exists_fields hb hl
  obtain ⟨r, last', k, hp⟩ : ∃ r last' k, recvPure now sig h len msgno frm rcp pk sid eps last = (r, last', k) :=
    ⟨_, _, _, rfl⟩
  refine ⟨r, last', k, by rw [recvMsg_encode hb hl e, hp], ?_⟩
  rw [show r = (recvPure now sig h len msgno frm rcp pk sid eps last).1 by rw [hp], recvPure_zero]
  constructor
  · rintro ⟨h1, h2, h3, h4, h5, h6, h7⟩
    exact ⟨sig, h, body, e, h1, h2, h3, h4, h5, (checkTs_window hw).1 h6, h7⟩
  · rintro ⟨sig', h', body', e', h1, h2, h3, h4, h5, h6, h7⟩
    obtain ⟨rfl, rfl, rfl⟩ := encode_inj (e.symm.trans e')
    exact ⟨h1, h2, h3, h4, h5, (checkTs_window hw).2 h6, h7⟩

/-- **C35.** Without the assumption on the wrap-around of the window the other conditions remain necessary. -/
theorem C35_accepted_only_if (now : UInt64) (buf : Bytes) (off len : ℕ) (msgno frm rcp : UInt8) (pk sid : B32)
    (eps last last' : UInt64) (k : ℕ) (hb : off + len ≤ buf.length) (hl : 111 ≤ len)
    (ha : recvMsg now buf off len msgno frm rcp pk sid eps last = .ok (0, last', k)) :
    ∃ sig h body, (buf.drop off).take len = encode sig h body ∧
      h.len.toNat = len ∧ h.msgno = msgno ∧ h.frm = frm ∧ h.rcp = rcp ∧ h.sid = sid ∧
      Signing.verify pk h.encode sig = true := by
  obtain ⟨sig, h, body, e⟩ := exists_fields hb hl
  rw [recvMsg_encode hb hl e] at ha
  simp only [C.ok.injEq] at ha
  obtain ⟨h1, h2, h3, h4, h5, _, h7⟩ := recvPure_zero.1 (congrArg Prod.fst ha)
  exact ⟨sig, h, body, e, h1, h2, h3, h4, h5, h7⟩

/-! ## C56 -/

/-- **C56.** `send_msg` puts the header fields at their fixed places in front of the body and touches nothing else. -/
theorem C56_send (now : UInt64) (pre old body : Bytes) (msgno frm rcp : UInt8) (sk : B64) (sid : B32)
    (ho : old.length = 111) (len : ℕ) :
    ∃ sig, sendMsg now (pre ++ (old ++ body)) pre.length len msgno frm rcp sk sid =
      .ok (pre ++ encode sig ⟨msgno, UInt32.ofNat len, frm, rcp, now, sid⟩ body) := by
  refine ⟨Signing.sign sk (Header.mk msgno (UInt32.ofNat len) frm rcp now sid).encode, ?_⟩
  rw [sendMsg_eq (by simp; omega)]
  simp [List.drop_append, ho, encode]

/-- **C56.** What was sent is read back: the receiver that expects these values accepts the message exactly when the
timestamp is fresh, and remembers that timestamp. -/
theorem C56_send_receive (now now' : UInt64) (pre old body post : Bytes) (msgno frm rcp : UInt8) (seed sid : B32)
    (eps last : UInt64) (ho : old.length = 111) (hlen : 111 + body.length < 2 ^ 32) :
    ∃ buf, sendMsg now (pre ++ (old ++ (body ++ post))) pre.length (111 + body.length) msgno frm rcp
        (Signing.skOf seed) sid = .ok buf ∧
      ∃ r, recvMsg now' buf pre.length (111 + body.length) msgno frm rcp (Signing.pkOf seed) sid eps last = .ok r ∧
        (r.1 = 0 ↔ (checkTs now' eps last now).1 = 0) ∧ (r.1 = 0 → r.2.1 = now) := by
  have hN : (UInt32.ofNat (111 + body.length)).toNat = 111 + body.length :=
    UInt32.toNat_ofNat_of_lt' (by simpa using hlen)
  refine ⟨_, sendMsg_eq (by simp; omega), ?_⟩
  refine ⟨_, recvMsg_encode (body := body) (sig := Signing.sign (Signing.skOf seed) (Header.mk msgno
    (UInt32.ofNat (111 + body.length)) frm rcp now sid).encode) (h := ⟨msgno, UInt32.ofNat (111 + body.length), frm,
    rcp, now, sid⟩) ?_ (by omega) ?_, ?_, ?_⟩
  · simp [encode_length]; omega
  · have e : (pre ++ (old ++ (body ++ post))).drop (pre.length + 111) = body ++ post := by
      simp [List.drop_append, ho]
    rw [e, List.take_left']
    rotate_left
    · rfl
    rw [List.drop_left' rfl]
    have e2 : ∀ (s : B64) (h : Header), encode s h [] ++ (body ++ post) = encode s h body ++ post := by
      intro s h; simp [encode]
    rw [e2, List.take_left' (encode_length _ _ _)]
  · rw [recvPure_zero]
    simp only [hN, Signing.verify_sign, true_and, and_true]
  · intro h0
    have := (recvPure_zero.1 h0)
    unfold recvPure
    simp only [hN, ne_eq, not_true_eq_false, if_false, Signing.verify_sign, if_true]
    have h6 : (checkTs now' eps last now).1 = 0 := this.2.2.2.2.2.1
    rw [if_neg (by simpa using h6)]
    unfold checkTs at h6 ⊢
    repeat' split
    all_goals simp_all

/-- **C56.** The conversion of the timestamp is an involution and its result lies in memory in network byte order; the
same for the length. -/
theorem C56_byte_order (x : UInt64) (y : UInt32) :
    htonll (htonll x) = x ∧ leBytes 8 (htonll x).toNat = beBytes 8 x.toNat ∧
    htonl (htonl y) = y ∧ leBytes 4 (htonl y).toNat = beBytes 4 y.toNat :=
  ⟨htonll_htonll x, leBytes_htonll x, htonl_htonl y, leBytes_htonl y⟩

/-! ## C36 -/

/-- **C36.** The property does not hold for the code: whether a message is accepted does not depend on its body. -/
theorem C36_body_ignored (now : UInt64) (sig : B64) (h : Header) (body body' : Bytes) (msgno frm rcp : UInt8)
    (pk sid : B32) (eps last : UInt64) (hl : body.length = body'.length) :
    recvMsg now (encode sig h body) 0 (111 + body.length) msgno frm rcp pk sid eps last =
    recvMsg now (encode sig h body') 0 (111 + body.length) msgno frm rcp pk sid eps last := by
  rw [recvMsg_encode (sig := sig) (h := h) (body := body) (by simp [encode_length]) (by omega)
      (by simp [← encode_length sig h body]),
    recvMsg_encode (sig := sig) (h := h) (body := body') (by simp [encode_length, hl]) (by omega)
      (by simp [hl, ← encode_length sig h body'])]

/-- **C36**, refuted: a message of an honest sender is accepted and so is the same header with another body. -/
theorem C36_not_authenticated (seed sid : B32) :
    ∃ (sig : B64) (h : Header) (body body' : Bytes), body ≠ body' ∧
      sendMsg 1000 (List.replicate 111 0 ++ body) 0 113 20 1 0 (Signing.skOf seed) sid = .ok (encode sig h body) ∧
      recvMsg 1000 (encode sig h body) 0 113 20 1 0 (Signing.pkOf seed) sid 10 0 = .ok (0, 1000, 1) ∧
      recvMsg 1000 (encode sig h body') 0 113 20 1 0 (Signing.pkOf seed) sid 10 0 = .ok (0, 1000, 1) := by
  have hc : checkTs 1000 10 0 1000 = (0, 1000, 1) := by decide
  have hr : ∀ b : Bytes, b.length = 2 → recvMsg 1000 (encode (Signing.sign (Signing.skOf seed)
      (Header.mk 20 113 1 0 1000 sid).encode) ⟨20, 113, 1, 0, 1000, sid⟩ b) 0 113 20 1 0 (Signing.pkOf seed) sid 10 0 =
      .ok (0, 1000, 1) := by
    intro b hb
    rw [recvMsg_encode (sig := Signing.sign (Signing.skOf seed) (Header.mk 20 113 1 0 1000 sid).encode)
      (h := ⟨20, 113, 1, 0, 1000, sid⟩) (body := b) (by simp [encode_length, hb]) (by omega)
      (by rw [List.drop_zero, List.take_of_length_le (by simp [encode_length, hb])])]
    simp [recvPure, hc, Signing.verify_sign]
  refine ⟨Signing.sign (Signing.skOf seed) (Header.mk 20 113 1 0 1000 sid).encode, ⟨20, 113, 1, 0, 1000, sid⟩,
    [79, 75], [78, 79], by decide, ?_, hr _ rfl, hr _ rfl⟩
  rw [sendMsg_eq (by simp)]
  simp [encode]

/-- **C36**, what remains: the header is authenticated. With the signature of the honest message, any altered header that
the signature does not cover is rejected. Missing: the body. -/
theorem C36_header_partial (now : UInt64) (sig : B64) (h' : Header) (body : Bytes) (msgno frm rcp : UInt8)
    (pk sid : B32) (eps last : UInt64) (hs : Signing.verify pk h'.encode sig = false) :
    ∃ r last' k, recvMsg now (encode sig h' body) 0 (111 + body.length) msgno frm rcp pk sid eps last =
      .ok (r, last', k) ∧ r ≠ 0 := by
  obtain ⟨r, last', k, hp⟩ : ∃ r last' k, recvPure now sig h' (111 + body.length) msgno frm rcp pk sid eps last =
    (r, last', k) := ⟨_, _, _, rfl⟩
  refine ⟨r, last', k, by rw [recvMsg_encode (sig := sig) (h := h') (body := body) (by simp [encode_length]) (by omega)
      (by simp [← encode_length sig h' body]), hp], ?_⟩
  intro h0
  have := (recvPure_zero.1 (show (recvPure now sig h' (111 + body.length) msgno frm rcp pk sid eps last).1 = 0 by
    rw [hp]; exact h0)).2.2.2.2.2.2
  rw [hs] at this
  cases this

/-! ## C37 -/

/-- One call of `recv_msg` for messages of one sender. -/
structure Reception where
  now : UInt64
  msg : Bytes
  msgno : UInt8
  frm : UInt8
  rcp : UInt8
  pk : B32
  sid : B32

/-- The timestamp in a message. -/
def tsOf (m : Bytes) : ℕ := beNat ((m.drop 71).take 8)

/-- The accepted messages of a history, with the value of `*last_ts` before the history. -/
def accepted (eps : UInt64) : UInt64 → List Reception → List Reception
  | _, [] => []
  | last, r :: rs =>
    match recvMsg r.now r.msg 0 r.msg.length r.msgno r.frm r.rcp r.pk r.sid eps last with
    | .ok (ret, last', _) => if ret = 0 then r :: accepted eps last' rs else accepted eps last' rs
    | .ub _ => []

theorem checkTs_le {now eps last ts : UInt64} : last.toNat ≤ (checkTs now eps last ts).2.1.toNat := by
  unfold checkTs
  by_cases h : last = 0
  · subst h; simp
  · simp only [if_neg h, gt_iff_lt, UInt64.lt_iff_toNat_lt]
    repeat' split
    all_goals first | exact Nat.le_refl _ | (simp only; omega)

theorem checkTs_zero {now eps last ts : UInt64} (h : (checkTs now eps last ts).1 = 0) :
    (checkTs now eps last ts).2.1 = ts := by
  unfold checkTs at *
  repeat' split
  all_goals simp_all

theorem recvPure_le {now : UInt64} {sig : B64} {h : Header} {len : ℕ} {msgno frm rcp : UInt8} {pk sid : B32}
    {eps last : UInt64} : last.toNat ≤ (recvPure now sig h len msgno frm rcp pk sid eps last).2.1.toNat := by
  unfold recvPure
  repeat' split
  all_goals first | exact Nat.le_refl _ | exact checkTs_le

theorem recvPure_last {now : UInt64} {sig : B64} {h : Header} {len : ℕ} {msgno frm rcp : UInt8} {pk sid : B32}
    {eps last : UInt64} (h0 : (recvPure now sig h len msgno frm rcp pk sid eps last).1 = 0) :
    (recvPure now sig h len msgno frm rcp pk sid eps last).2.1 = h.ts := by
  have h6 := (recvPure_zero.1 h0).2.2.2.2.2.1
  have := checkTs_zero h6
  unfold recvPure at *
  repeat' split
  all_goals simp_all

theorem tsOf_encode (sig : B64) (h : Header) (body : Bytes) : tsOf (encode sig h body) = h.ts.toNat := by
  rw [tsOf, encode_ts, beNat_beBytes, Nat.mod_eq_of_lt (by simpa using h.ts.toNat_lt)]

theorem accepted_ge (eps : UInt64) : ∀ (rs : List Reception) (last : UInt64), (∀ r ∈ rs, 111 ≤ r.msg.length) →
    ∀ r ∈ accepted eps last rs, last.toNat ≤ tsOf r.msg
  | [], _, _, r, h => by simp [accepted] at h
  | r :: rs, last, hl, r', h => by
    obtain ⟨sig, hd, e⟩ := exists_encode r.msg (hl r (by simp))
    have hr := recvMsg_encode (now := r.now) (msgno := r.msgno) (frm := r.frm) (rcp := r.rcp) (pk := r.pk) (sid := r.sid)
      (eps := eps) (last := last) (buf := r.msg) (off := 0) (len := r.msg.length) (sig := sig) (h := hd)
      (body := r.msg.drop 111) (by omega) (hl r (by simp)) (by simpa using e)
    have hle := recvPure_le (now := r.now) (sig := sig) (h := hd) (len := r.msg.length) (msgno := r.msgno)
      (frm := r.frm) (rcp := r.rcp) (pk := r.pk) (sid := r.sid) (eps := eps) (last := last)
    unfold accepted at h
    rw [hr] at h
    dsimp only at h
    split at h
    · rename_i h0
      have hlast := recvPure_last h0
      rcases List.mem_cons.1 h with rfl | h
      · rw [e, tsOf_encode, ← hlast]; exact hle
      · have := accepted_ge eps rs _ (fun x hx => hl x (by simp [hx])) r' h
        exact Nat.le_trans hle this
    · have := accepted_ge eps rs _ (fun x hx => hl x (by simp [hx])) r' h
      exact Nat.le_trans hle this

/-- **C37**, the part that holds: in any history of messages from one sender the timestamps of the accepted messages never
decrease. Missing: the comparison with the receiver's clock after the first message. -/
theorem C37_monotone_partial (eps : UInt64) : ∀ (rs : List Reception) (last : UInt64),
    (∀ r ∈ rs, 111 ≤ r.msg.length) → (accepted eps last rs).Pairwise (fun a b => tsOf a.msg ≤ tsOf b.msg)
  | [], _, _ => by simp [accepted]
  | r :: rs, last, hl => by
    obtain ⟨sig, hd, e⟩ := exists_encode r.msg (hl r (by simp))
    have hr := recvMsg_encode (now := r.now) (msgno := r.msgno) (frm := r.frm) (rcp := r.rcp) (pk := r.pk) (sid := r.sid)
      (eps := eps) (last := last) (buf := r.msg) (off := 0) (len := r.msg.length) (sig := sig) (h := hd)
      (body := r.msg.drop 111) (by omega) (hl r (by simp)) (by simpa using e)
    have ih := C37_monotone_partial eps rs (recvPure r.now sig hd r.msg.length r.msgno r.frm r.rcp r.pk r.sid eps last).2.1
      (fun x hx => hl x (by simp [hx]))
    unfold accepted
    rw [hr]
    dsimp only
    split
    · rename_i h0
      refine List.pairwise_cons.2 ⟨?_, ih⟩
      intro r' h'
      have := accepted_ge eps rs _ (fun x hx => hl x (by simp [hx])) r' h'
      rw [recvPure_last h0] at this
      rw [e, tsOf_encode]
      exact this
    · exact ih

/-- **C37.** A replay with an older timestamp is rejected, whatever the clock says and whatever the message is. -/
theorem C37_replay_rejected (now : UInt64) (sig : B64) (h : Header) (body : Bytes) (msgno frm rcp : UInt8)
    (pk sid : B32) (eps last : UInt64) (hts : h.ts.toNat < last.toNat) :
    ∃ r k, recvMsg now (encode sig h body) 0 (111 + body.length) msgno frm rcp pk sid eps last =
      .ok (r, last, k) ∧ r ≠ 0 := by
  have hc : checkTs now eps last h.ts = (1, last, 0) := by
    have h0 : last ≠ 0 := by rintro rfl; simp at hts
    unfold checkTs
    rw [if_neg h0, if_pos (by simpa [UInt64.lt_iff_toNat_lt] using hts)]
  have hr := recvMsg_encode (now := now) (sig := sig) (h := h) (body := body) (buf := encode sig h body) (off := 0)
    (len := 111 + body.length) (msgno := msgno) (frm := frm) (rcp := rcp) (pk := pk) (sid := sid) (eps := eps)
    (last := last) (by simp [encode_length]) (by omega) (by simp [← encode_length sig h body])
  rw [hr]
  unfold recvPure
  rw [hc]
  repeat' split
  all_goals first | exact ⟨_, _, rfl, by decide⟩ | simp_all

/-- **C37.** The first accepted message is at most `eps` old and at most `eps` ahead of the clock, a later one at most
`eps` newer than the one before. -/
theorem C37_window_partial (now : UInt64) (buf : Bytes) (msgno frm rcp : UInt8) (pk sid : B32) (eps last last' : UInt64)
    (k : ℕ) (hl : 111 ≤ buf.length) (hw : last = 0 → eps.toNat ≤ now.toNat ∧ now.toNat + eps.toNat < 2 ^ 64)
    (ha : recvMsg now buf 0 buf.length msgno frm rcp pk sid eps last = .ok (0, last', k)) :
    InWindow now eps last last' ∧ last'.toNat = tsOf buf := by
  obtain ⟨sig, h, e⟩ := exists_encode buf hl
  rw [recvMsg_encode (by omega) hl (by simpa using e)] at ha
  simp only [C.ok.injEq] at ha
  have h0 := congrArg Prod.fst ha
  have h6 := (recvPure_zero.1 h0).2.2.2.2.2.1
  have h7 := recvPure_last h0
  have h8 : last' = h.ts := by rw [← h7, ha]
  refine ⟨?_, by rw [h8, e, tsOf_encode]⟩
  subst h8
  by_cases hz : last = 0
  · exact (checkTs_window (by unfold NoWrap; rw [if_pos hz]; exact hw hz)).1 h6
  · by_cases hn : last.toNat + eps.toNat < 2 ^ 64
    · exact (checkTs_window (by unfold NoWrap; rw [if_neg hz]; exact hn)).1 h6
    · exfalso
      unfold checkTs at h6
      have e2 : (last + eps).toNat = last.toNat + eps.toNat - 2 ^ 64 := by
        have := last.toNat_lt; have := eps.toNat_lt
        rw [UInt64.toNat_add]; omega
      have := eps.toNat_lt
      simp only [if_neg hz, gt_iff_lt, UInt64.lt_iff_toNat_lt, e2] at h6
      by_cases h9 : h.ts.toNat < last.toNat
      · rw [if_pos h9] at h6; cases h6
      · rw [if_neg h9, if_pos (by omega)] at h6; cases h6

/-- **C37**, refuted: accepted timestamps can be ahead of the receiver's clock by any multiple of the window. The `m`-th
message, dated `m` windows into the future, is accepted after its predecessor although the clock stands still. -/
theorem C37_ahead_of_clock (now eps : UInt64) (m : ℕ) (hm : now.toNat + (m + 1) * eps.toNat < 2 ^ 64)
    (h0 : 0 < now.toNat) (he : eps.toNat ≤ now.toNat) :
    (checkTs now eps 0 (now + eps)).1 = 0 ∧
    (checkTs now eps (UInt64.ofNat (now.toNat + m * eps.toNat)) (UInt64.ofNat (now.toNat + (m + 1) * eps.toNat))).1 = 0 := by
  have hx : (m + 1) * eps.toNat = m * eps.toNat + eps.toNat := by ring
  rw [hx] at hm ⊢
  have e1 : (UInt64.ofNat (now.toNat + m * eps.toNat)).toNat = now.toNat + m * eps.toNat :=
    UInt64.toNat_ofNat_of_lt' (by rw [UInt64.size]; omega)
  have e2 : (UInt64.ofNat (now.toNat + (m * eps.toNat + eps.toNat))).toNat = now.toNat + (m * eps.toNat + eps.toNat) :=
    UInt64.toNat_ofNat_of_lt' (by rw [UInt64.size]; omega)
  have hne : UInt64.ofNat (now.toNat + m * eps.toNat) ≠ 0 := by
    intro h
    rw [h] at e1
    simp at e1
    omega
  have e3 : (now + eps).toNat = now.toNat + eps.toNat := by
    rw [UInt64.toNat_add]; apply Nat.mod_eq_of_lt; omega
  constructor
  · rw [checkTs_window]
    · unfold InWindow; rw [if_pos rfl, e3]; omega
    · unfold NoWrap; rw [if_pos rfl]; omega
  · rw [checkTs_window]
    · unfold InWindow; rw [if_neg hne, e1, e2]; omega
    · unfold NoWrap; rw [if_neg hne, e1]; omega

end

/-! ## Examples -/

section Examples

attribute [local instance] Toy.signing

/-- A signed message of 113 bytes for the examples. -/
def exHeader : Header := ⟨20, 113, 1, 0, 1000, zero32⟩

def exMsg : Bytes := encode (toB64 exHeader.encode) exHeader [79, 75]

example : NoWrap 1000 10 995 ∧ InWindow 1000 10 995 1000 := by
  unfold NoWrap InWindow; decide +kernel

/-- The message is accepted at offset 3 of a buffer. -/
example : recvMsg 1000 ([1, 2, 3] ++ exMsg) 3 113 20 1 0 zero32 zero32 10 995 = .ok (0, 1000, 0) := by decide +kernel

/-- An altered header is not covered by the signature. -/
example : Signing.verify zero32 { exHeader with ts := 1001 }.encode (toB64 exHeader.encode) = false := by
  decide +kernel

/-- A history with an accepted message, a replay and a later message. -/
example : (accepted 10 0 [⟨1003, exMsg, 20, 1, 0, zero32, zero32⟩,
    ⟨1003, encode (toB64 { exHeader with ts := 999 }.encode) { exHeader with ts := 999 } [79, 75], 20, 1, 0, zero32, zero32⟩,
    ⟨1003, encode (toB64 { exHeader with ts := 1010 }.encode) { exHeader with ts := 1010 } [79, 75], 20, 1, 0, zero32,
      zero32⟩]).map (tsOf ·.msg) = [1000, 1010] := by decide +kernel

/-- The hypotheses of `C37_ahead_of_clock`. -/
example : (1000 : UInt64).toNat + (50 + 1) * (120 : UInt64).toNat < 2 ^ 64 ∧ 0 < (1000 : UInt64).toNat ∧
    (120 : UInt64).toNat ≤ (1000 : UInt64).toNat := by decide +kernel

end Examples

end Verif.Props
