import Verif.Spec.Doc
import Verif.Props.PeerRun
import Verif.Props.TpMsg

/-!
# Property C102: the protocol is the one of the documentation (`/repo/docs/tp-dkg.txt`)
-/

set_option linter.unusedSectionVars false

namespace Verif.Props

open Wire TpDkg Spec.Wire

section
variable [Signing] [Hashes] [NoiseCrypto] [Mac]

/-! ## The announcement -/

/-- **C102, announcement.** For all parameters that the trusted party accepts: the message carries the number 0, the sender 0,
the receiver 0xff and the session id; its body is the key for signatures, the hash of the documented string for the separation
of domains with its length in two bytes, `n` and `t`. The order of the fields is not the one of the documentation. -/
theorem C102_announcement {ctx c : TP} {now eps : UInt64} {n t : UInt8} {name msg0 m : Bytes} {sid seed : B32}
    (h : startTp ctx now eps n t name sid seed msg0 = .ok (0, c, m)) :
    m = encode (Signing.sign (Signing.skOf seed) (Header.mk 0 177 0 0xff now sid).encode) ⟨0, 177, 0, 0xff, now, sid⟩
      ((Signing.pkOf seed).toList ++
        (Hashes.generichash32 (beBytes 2 (Spec.Doc.dstStr name).length ++ Spec.Doc.dstStr name)).toList ++ [n, t]) := by
  have h1 := (startTp_eq h).1
  have e : Spec.Doc.dstStr name = dstPrefix ++ name := by
    unfold Spec.Doc.dstStr
    congr 1
  have e2 : (dstPrefix ++ name).length = name.length + 20 := by
    rw [List.length_append, show dstPrefix.length = 20 from rfl, Nat.add_comm]
  rw [h1, e, e2, List.append_assoc (beBytes 2 _)]

/-! ## Timestamps -/

/-- **C102, received messages.** For all buffers, and all times without overflow: a message that is not the first of its sender
is accepted iff it has the expected fields, its signature over the header is right, and its timestamp is the last one of the
sender or one of the next `ts_epsilon` seconds. This is the documented condition for a timeout of `ts_epsilon + 1`. -/
theorem C102_received_partial (now : UInt64) (buf : Bytes) (off len : ℕ) (msgno frm rcp : UInt8) (pk sid : B32)
    (eps last : UInt64) (hb : off + len ≤ buf.length) (hl : 111 ≤ len) (h0 : last ≠ 0) (hw : last.toNat + eps.toNat < 2 ^ 64) :
    ∃ r last' k, recvMsg now buf off len msgno frm rcp pk sid eps last = .ok (r, last', k) ∧
      (r = 0 ↔ ∃ sig h body, (buf.drop off).take len = encode sig h body ∧
        h.len.toNat = len ∧ h.msgno = msgno ∧ h.frm = frm ∧ h.rcp = rcp ∧ h.sid = sid ∧
        Spec.Doc.Fresh last.toNat (eps.toNat + 1) h.ts.toNat ∧ Signing.verify pk h.encode sig = true) := by
  obtain ⟨r, last', k, h, hr⟩ := C35_accepted_iff now buf off len msgno frm rcp pk sid eps last hb hl
    (by unfold NoWrap; rw [if_neg h0]; exact hw)
  refine ⟨r, last', k, h, hr.trans ?_⟩
  simp only [InWindow, if_neg h0, Spec.Doc.Fresh, Nat.lt_succ_iff, Nat.add_succ, ← Nat.add_assoc, Nat.lt_add_one_iff]

end

section
attribute [local instance] Ristretto.toy Toy.hashes Toy.signing Toy.noise Toy.mac

/-- The hypothesis of `C102_announcement` holds for 3 peers with threshold 2. -/
example : ∃ c m, startTp (Toy.tp3 0) 5 3 3 2 [116, 101, 115, 116] zero32 zero32 (List.replicate 177 0) = .ok (0, c, m) := by
  obtain ⟨r, c, m, h1, h2⟩ := Toy.holds_elim (p := fun r _ _ => r == 0)
    (x := startTp (Toy.tp3 0) 5 3 3 2 [116, 101, 115, 116] zero32 zero32 (List.replicate 177 0)) (by decide +kernel)
  rw [beq_iff_eq] at h2
  exact ⟨c, m, by rw [h1, h2]⟩

/-- **C102**, violated: with a timeout of 3 seconds a message with a timestamp 3 seconds after the last one is accepted, and
so is one with the same timestamp; by the documentation neither must be, the second by the text of `recv_msg`. -/
theorem C102_timeout_violated :
    (∃ last k, recvMsg 15 (Toy.msg 111 1 0 2 []) 0 111 1 0 2 zero32 zero32 3 2 = .ok (0, last, k) ∧ ¬ Spec.Doc.Fresh 2 3 5) ∧
    (∃ last k, recvMsg 15 (Toy.msg 111 1 0 2 []) 0 111 1 0 2 zero32 zero32 3 5 = .ok (0, last, k) ∧ ¬ Spec.Doc.FreshRecv 5 3 5) := by
  refine ⟨⟨5, 0, by decide +kernel, fun h => absurd h.2 (by decide)⟩, ⟨5, 0, by decide +kernel, fun h => absurd h.1 (by decide)⟩⟩

end

/-! ## The transcript -/

theorem updateTranscript_be (T m : Bytes) (h : m.length < 2 ^ 32) : updateTranscript T m = T ++ beBytes 4 m.length ++ m := by
  rw [updateTranscript, leBytes_htonl, UInt32.toNat_ofNat_of_lt' (by simpa using h)]

/-- The initial value is the documented one. -/
theorem C102_init : transcriptInit = Spec.Doc.init := by decide

/-- **C102, transcript**, violated: for no message is the transcript updated as documented. The length of the signature is not
hashed, and the signature comes before the message. -/
theorem C102_transcript_violated (T sig msg : Bytes) : updateTranscript T (sig ++ msg) ≠ Spec.Doc.update T msg sig := by
  intro h
  have := congrArg List.length h
  simp [updateTranscript, Spec.Doc.update] at this
  omega

theorem updates_inj : ∀ l l' : List Bytes, (∀ m ∈ l, m.length < 2 ^ 32) → (∀ m ∈ l', m.length < 2 ^ 32) →
    (l.map fun m => beBytes 4 m.length ++ m).flatten = (l'.map fun m => beBytes 4 m.length ++ m).flatten → l = l'
  | [], [], _, _, _ => rfl
  | [], m :: l', _, _, h => by
    have := congrArg List.length h
    simp at this
    omega
  | m :: l, [], _, _, h => by
    have := congrArg List.length h
    simp at this
  | m :: l, m' :: l', h1, h2, h => by
    rw [List.map_cons, List.map_cons, List.flatten_cons, List.flatten_cons, List.append_assoc, List.append_assoc] at h
    obtain ⟨ha, hb⟩ := List.append_inj h (by simp)
    have hlen : m.length = m'.length := by
      have := congrArg beNat ha
      rw [beNat_beBytes, beNat_beBytes] at this
      have a := h1 m (by simp)
      have b := h2 m' (by simp)
      omega
    obtain ⟨rfl, hc⟩ := List.append_inj hb hlen
    rw [updates_inj l l' (fun m hm => h1 m (by simp [hm])) (fun m hm => h2 m (by simp [hm])) hc]

theorem updates_eq : ∀ (l : List Bytes) (T : Bytes), (∀ m ∈ l, m.length < 2 ^ 32) →
    l.foldl updateTranscript T = T ++ (l.map fun m => beBytes 4 m.length ++ m).flatten
  | [], T, _ => by simp
  | m :: l, T, h => by
    rw [List.foldl_cons, updateTranscript_be T m (h m (by simp)), updates_eq l _ fun m hm => h m (by simp [hm])]
    simp

/-- **C102, what the transcript is for.** For all two lists of messages shorter than 2^32 bytes: if the bytes that are hashed
are the same, the messages are the same, in the same order. -/
theorem C102_transcript_binds (l l' : List Bytes) (h : ∀ m ∈ l, m.length < 2 ^ 32) (h' : ∀ m ∈ l', m.length < 2 ^ 32)
    (he : l.foldl updateTranscript transcriptInit = l'.foldl updateTranscript transcriptInit) : l = l' := by
  rw [updates_eq l _ h, updates_eq l' _ h'] at he
  exact updates_inj l l' h h' (List.append_cancel_left he)

/-- The bytes without the lengths would not determine the messages. -/
example : [[1], [2, 3]].flatten = ([[1, 2], [3]] : List Bytes).flatten ∧
    [[1], [2, 3]].foldl updateTranscript transcriptInit ≠ [[1, 2], [3]].foldl updateTranscript transcriptInit := by
  refine ⟨rfl, fun h => ?_⟩
  have := C102_transcript_binds [[1], [2, 3]] [[1, 2], [3]] (by simp) (by simp) h
  exact absurd this (by decide)

/-! ## Complaints -/

section
attribute [local instance] Ristretto.toy Toy.hashes Toy.signing Toy.noise Toy.mac

/-- **C102**, violated: with threshold 2, peer 1 complains about 3 peers. The trusted party records the complaints, reports
nobody and goes on. -/
theorem C102_complaints_violated : ∃ c' o, Toy.run true (Toy.tp3 6)
      (Toy.msg 115 9 1 0xff [3, 1, 2, 3] ++ Toy.msg 115 9 2 0xff [0, 0, 0, 0] ++ Toy.msg 115 9 3 0xff [0, 0, 0, 0]) =
        .ok (0, c', o) ∧ Good (Toy.tp3 6) ∧ c'.known = [257, 258, 259] ∧ c'.cheaterLen = 0 ∧
      Spec.Doc.TooMany (Toy.tp3 6).t.toNat [1, 2, 3] := by
  obtain ⟨r, c, o, h1, h2⟩ := Toy.holds_elim (p := fun r c _ => r == 0 && (c.known == [257, 258, 259] && c.cheaterLen == 0))
    (x := Toy.run true (Toy.tp3 6)
      (Toy.msg 115 9 1 0xff [3, 1, 2, 3] ++ Toy.msg 115 9 2 0xff [0, 0, 0, 0] ++ Toy.msg 115 9 3 0xff [0, 0, 0, 0]))
    (by decide +kernel)
  simp only [Bool.and_eq_true, beq_iff_eq] at h2
  exact ⟨c, o, by rw [h1, h2.1], Toy.tp3_good (by decide), h2.2.1, h2.2.2, by unfold Spec.Doc.TooMany; decide⟩

end

end Verif.Props
