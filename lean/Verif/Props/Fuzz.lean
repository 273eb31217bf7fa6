import Verif.Model.Fuzz
import Verif.Props.PeerRun
import Mathlib.Data.List.ReduceOption

/-!
# Property C98: the fuzzing programs (`/repo/src/tests/fuzz`)
-/

set_option linter.unusedSectionVars false

namespace Verif.Props

open TpDkg Verif.Wire Spec.Wire Verif.Fuzz

section
variable [Signing] [Hashes] [NoiseCrypto] [Mac]

/-- **C98, `msg0.c`.** The program returns 0 and writes one message 0 that every peer accepts whose clock is at most 10
seconds away, whatever its key: the peers get 3 peers and threshold 2. -/
theorem C98_msg0 (tp : TP) (now : UInt64) (sid seed : B32) (junk : Vector UInt8 177) :
    ∃ m, msg0Main tp now sid seed junk = .ok (0, m) ∧ m.length = 177 ∧
      ∀ (peer : PeerState) (now' : UInt64) (log : Bool) (sk : B64), InWindow now' 10 0 now → NoWrap now' 10 0 →
        ∃ p, startPeer peer now' 10 log sk m = .ok (0, p) ∧ p.n = 3 ∧ p.t = 2 ∧ p.sid = sid := by
  obtain ⟨r, c, m, h, h0, -⟩ := C51_tp_accepts_partial tp now 10 3 2 [112, 114, 111, 116, 111, 32, 116, 101, 115, 116] junk.toList
    sid seed
  obtain rfl : r = 0 := h0.2 ⟨by decide, by decide, by decide, by decide, by decide, Vector.length_toList⟩
  obtain ⟨dst, hm, hsid, -, -⟩ := startTp_ok h
  obtain ⟨hn, ht, -⟩ := start_ok h
  refine ⟨m, ?_, by rw [hm, encode_length]; simp, fun peer now' log sk hw hnw => ?_⟩
  · unfold msg0Main
    rw [h, C.ok_bind]
    rfl
  · obtain ⟨p, h1, h2, h3, h4, -⟩ := C51_same_parameters_partial tp c peer now now' 10 10 3 2 _ junk.toList m sid seed log sk h
      (by decide) hw hnw
    exact ⟨p, h1, by rw [h2, hn], by rw [h3, ht], by rw [h4, hsid]⟩

/-- **C98, `peer-start.c`.** A pass with a test case of fewer than 111 bytes, or with a message that the peer refuses, is
defined. Missing: messages that the peer accepts. -/
theorem C98_peer_start_partial (peer : PeerState) (now : UInt64) (sks : Vector UInt8 32) (buf : Bytes) (len : ℕ)
    (h : len < 111 ∨ (buf.length = 177 ∧ ∀ p, startPeer peer now 10 false (toB64 sks.toList) buf ≠ .ok (0, p))) :
    (peerStartPass peer now sks buf len).Safe := by
  unfold peerStartPass
  by_cases hl : len < 111
  · rw [if_pos hl]
    exact ⟨_, rfl⟩
  · rw [if_neg hl]
    obtain ⟨h1, h2⟩ := h.resolve_left hl
    obtain ⟨r, p, hp, -⟩ := C51_peer_accepts peer now 10 false (toB64 sks.toList) buf h1
    rw [hp, C.ok_bind]
    dsimp only
    rw [if_pos (by rintro rfl; exact h2 p hp)]
    exact ⟨_, rfl⟩

/-- **C98, negation: `peer-start.c` reads beyond its key.** Whenever the peer accepts the test case, 64 bytes are read
from an array of 32 bytes. -/
theorem C98_peer_start_violated (peer p : PeerState) (now : UInt64) (sks : Vector UInt8 32) (buf : Bytes) (len : ℕ)
    (hl : 111 ≤ len) (h : startPeer peer now 10 false (toB64 sks.toList) buf = .ok (0, p)) :
    peerStartPass peer now sks buf len = .ub .oob := by
  unfold peerStartPass
  rw [if_neg (by omega), h, C.ok_bind]
  dsimp only
  rw [if_neg (by decide)]
  unfold rd
  rw [if_neg (by simp)]
  rfl

/-- **C98, negation.** The output of `msg0.c` is such a test case for the next ten seconds. -/
theorem C98_seed_violated (tp : TP) (peer : PeerState) (now now' : UInt64) (sid seed : B32) (junk : Vector UInt8 177)
    (sks : Vector UInt8 32) (hw : InWindow now' 10 0 now) (hnw : NoWrap now' 10 0) :
    ∃ m, msg0Main tp now sid seed junk = .ok (0, m) ∧ peerStartPass peer now' sks m m.length = .ub .oob := by
  obtain ⟨m, h1, h2, h3⟩ := C98_msg0 tp now sid seed junk
  obtain ⟨p, hp, -⟩ := h3 peer now' false (toB64 sks.toList) hw hnw
  exact ⟨m, h1, C98_peer_start_violated peer p now' sks m _ (by omega) hp⟩

/-- Times that meet the hypotheses. -/
example : InWindow 1003 10 0 1000 ∧ NoWrap 1003 10 0 := by
  unfold InWindow NoWrap
  decide

end

/-! ## The parser -/

/-- What one wants to see of a message: all its fields. -/
def fields (sig : B64) (h : Header) (data : Bytes) : Msg :=
  ⟨sig.toList, h.msgno.toNat, h.len.toNat, h.frm.toNat, h.rcp.toNat, h.ts.toNat, data⟩

/-- A message with a right length and a time that can be expressed as a date. -/
structure Proper (dated : ℕ → Bool) (h : Header) (body : Bytes) : Prop where
  len : h.len.toNat = 111 + body.length
  ts : dated h.ts.toNat = true

theorem parse_encode (dated : ℕ → Bool) (sig : B64) (h : Header) (body rest : Bytes) (hp : Proper dated h body) :
    parse dated (encode sig h body ++ rest) = some (fields sig h (h.sid.toList ++ body)) := by
  have hl := encode_length sig h body
  have hone : ∀ b : UInt8, beNat [b] = b.toNat := fun b => by simp [beNat, leNat]
  have cut : ∀ a k, a + k ≤ 111 → ((encode sig h body ++ rest).drop a).take k = ((encode sig h body).drop a).take k := by
    intro a k hk
    rw [List.drop_append_of_le_length (by omega), List.take_append_of_le_length (by rw [List.length_drop]; omega)]
  have hlen : beNat (((encode sig h body ++ rest).drop 65).take 4) = h.len.toNat := by
    rw [cut 65 4 (by omega), encode_len, beNat_beBytes, Nat.mod_eq_of_lt (lt_of_lt_of_eq h.len.toNat_lt (by norm_num))]
  have hts : beNat (((encode sig h body ++ rest).drop 71).take 8) = h.ts.toNat := by
    rw [cut 71 8 (by omega), encode_ts, beNat_beBytes, Nat.mod_eq_of_lt (lt_of_lt_of_eq h.ts.toNat_lt (by norm_num))]
  unfold parse
  dsimp only
  rw [if_neg (by rw [List.length_append]; omega), hlen, hts, if_neg (by rw [hp.ts]; decide), if_neg (by have := hp.len; omega),
    if_neg (by rw [List.length_append, hp.len]; omega)]
  have hsig : (encode sig h body ++ rest).take 64 = sig.toList := by
    have := cut 0 64 (by omega)
    rw [List.drop_zero, List.drop_zero, encode_sig] at this
    exact this
  have hdata : ((encode sig h body ++ rest).drop 79).take (h.len.toNat - 79) = h.sid.toList ++ body := by
    rw [List.drop_append_of_le_length (by omega), List.take_left' (by rw [List.length_drop, hp.len]; omega)]
    have e := List.take_append_drop 32 ((encode sig h body).drop 79)
    rw [List.drop_drop, encode_sid, encode_body] at e
    exact e.symm
  rw [hsig, hdata, cut 64 1 (by omega), cut 69 1 (by omega), cut 70 1 (by omega), encode_msgno, encode_frm, encode_rcp, hone,
    hone, hone]
  rfl

/-- **C98, the parser of messages.** A file that consists of whole messages is printed message by message, with all fields of
the headers. What is printed as data is the session id and the body. -/
theorem C98_parser_partial (dated : ℕ → Bool) : ∀ ms : List (B64 × Header × Bytes), (∀ m ∈ ms, Proper dated m.2.1 m.2.2) →
    printed dated (ms.map fun m => encode m.1 m.2.1 m.2.2).flatten =
      ms.map fun m => some (fields m.1 m.2.1 (m.2.1.sid.toList ++ m.2.2))
  | [], _ => by
    unfold printed
    rfl
  | (sig, h, body) :: ms, hp => by
    have hh := hp _ List.mem_cons_self
    have hl := encode_length sig h body
    have hpar := parse_encode dated sig h body (ms.map fun m => encode m.1 m.2.1 m.2.2).flatten hh
    have ih := C98_parser_partial dated ms fun m hm => hp m (List.mem_cons_of_mem _ hm)
    rw [List.map_cons, List.flatten_cons, printed, dif_pos (by rw [List.length_append]; dsimp only; omega)]
    dsimp only
    split
    · rename_i m hm
      rw [hpar] at hm
      cases hm
      rw [List.map_cons]
      congr 1
      rw [← ih]
      congr 1
      exact List.drop_left' (by rw [hl]; exact hh.len.symm)
    · rename_i hm
      rw [hpar] at hm
      cases hm

/-- **C98, negation: what is printed as data is never the body of the message.** The parser does not know the session id. -/
theorem C98_parser_violated (dated : ℕ → Bool) (sig : B64) (h : Header) (body : Bytes) (hp : Proper dated h body) :
    ∃ m, printed dated (encode sig h body) = [some m] ∧ m.data ≠ body := by
  have := C98_parser_partial dated [(sig, h, body)] (by simpa using hp)
  simp only [List.map_cons, List.map_nil, List.flatten_cons, List.flatten_nil, List.append_nil] at this
  refine ⟨_, this, fun h' => ?_⟩
  have := congrArg List.length h'
  simp [fields] at this

/-- **C98, the loop makes progress.** Whatever the file contains, no byte is shown twice: the messages that are printed, of at
least 79 bytes each, are not longer than the file together. -/
theorem C98_progress (dated : ℕ → Bool) (raw : Bytes) : ((printed dated raw).reduceOption.map (·.size)).sum ≤ raw.length ∧
    79 * (printed dated raw).length ≤ raw.length + 78 := by
  induction hn : raw.length using Nat.strong_induction_on generalizing raw with
  | _ n ih =>
    subst hn
    rw [printed]
    split
    · rename_i hr
      split
      · rename_i m hm
        have h79 := parse_size hm
        have hle : m.size ≤ raw.length := by
          unfold parse at hm
          dsimp only at hm
          split at hm
          · cases hm
          split at hm
          · cases hm
          split at hm
          · cases hm
          split at hm
          · cases hm
          rename_i h1
          cases hm
          exact Nat.le_of_not_lt h1
        have := ih (raw.drop m.size).length (by rw [List.length_drop]; omega) _ rfl
        rw [List.length_drop] at this
        simp only [List.reduceOption_cons_of_some, List.map_cons, List.sum_cons, List.length_cons]
        omega
      · have := ih (raw.drop 83).length (by rw [List.length_drop]; omega) _ rfl
        rw [List.length_drop] at this
        simp only [List.reduceOption_cons_of_none, List.length_cons]
        omega
    · simp

/-- A message that meets the hypotheses. -/
example : Proper (fun ts => ts < 253402300800) ⟨0, 177, 0, 0xff, 1000, zero32⟩ (List.replicate 66 0) :=
  ⟨by simp, by decide⟩

end Verif.Props
