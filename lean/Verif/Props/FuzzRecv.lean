import Verif.Model.FuzzRecv
import Verif.Props.Doc

/-!
# Property C108: what the library built for fuzzing accepts (`/repo/src/tp-dkg.c:125-155`)
-/

set_option linter.unusedSectionVars false

namespace Verif.Props

open Wire Spec.Wire

section
variable [Signing] {now : UInt64} {buf : Bytes} {off len : ℕ} {msgno frm rcp : UInt8} {pk sid : B32} {eps last : UInt64}

/-- **C108.** What the library built for use accepts, the one built for fuzzing accepts too. -/
theorem C108_accepts {last' : UInt64} {k : ℕ} (h : recvMsg now buf off len msgno frm rcp pk sid eps last = .ok (0, last', k)) :
    recvMsgFuzz buf off len msgno frm rcp sid = .ok 0 := by
  unfold recvMsg at h
  unfold recvMsgFuzz
  obtain ⟨l, hl, h⟩ := C.bind_eq_ok.1 h
  rw [hl, C.ok_bind]
  split at h
  · cases h
  rename_i h1
  rw [if_neg h1]
  obtain ⟨m, hm, h⟩ := C.bind_eq_ok.1 h
  rw [hm, C.ok_bind]
  split at h
  · cases h
  rename_i h2
  rw [if_neg h2]
  obtain ⟨f, hf, h⟩ := C.bind_eq_ok.1 h
  rw [hf, C.ok_bind]
  split at h
  · cases h
  rename_i h3
  rw [if_neg h3]
  obtain ⟨t, ht, h⟩ := C.bind_eq_ok.1 h
  rw [ht, C.ok_bind]
  split at h
  · cases h
  rename_i h4
  rw [if_neg h4]
  obtain ⟨s, hs, h⟩ := C.bind_eq_ok.1 h
  rw [hs, C.ok_bind]
  split at h
  · cases h
  rename_i h5
  rw [if_neg h5]
  obtain ⟨ts, -, h⟩ := C.bind_eq_ok.1 h
  dsimp only at h
  split at h
  · cases h
  split at h
  · cases h
  rename_i h7
  rw [if_neg h7]
  obtain ⟨x, hx, h⟩ := C.bind_eq_ok.1 h
  rw [hx, C.ok_bind]

/-- **C108.** What the library built for fuzzing refuses, the one built for use refuses with the same code, and without touching
the time stamp. So a refusal that the fuzzer sees is one of the product. -/
theorem C108_refuses {r : Int} (hr : r ≠ 0) (h : recvMsgFuzz buf off len msgno frm rcp sid = .ok r) :
    recvMsg now buf off len msgno frm rcp pk sid eps last = .ok (r, last, 0) := by
  unfold recvMsgFuzz at h
  unfold recvMsg
  obtain ⟨l, hl, h⟩ := C.bind_eq_ok.1 h
  rw [hl, C.ok_bind]
  split at h
  · rename_i h1; cases h; rw [if_pos h1]
  rename_i h1
  rw [if_neg h1]
  obtain ⟨m, hm, h⟩ := C.bind_eq_ok.1 h
  rw [hm, C.ok_bind]
  split at h
  · rename_i h1; cases h; rw [if_pos h1]
  rename_i h2
  rw [if_neg h2]
  obtain ⟨f, hf, h⟩ := C.bind_eq_ok.1 h
  rw [hf, C.ok_bind]
  split at h
  · rename_i h1; cases h; rw [if_pos h1]
  rename_i h3
  rw [if_neg h3]
  obtain ⟨t, ht, h⟩ := C.bind_eq_ok.1 h
  rw [ht, C.ok_bind]
  split at h
  · rename_i h1; cases h; rw [if_pos h1]
  rename_i h4
  rw [if_neg h4]
  obtain ⟨s, hs, h⟩ := C.bind_eq_ok.1 h
  rw [hs, C.ok_bind]
  split at h
  · rename_i h1; cases h; rw [if_pos h1]
  split at h
  · cases h
  obtain ⟨x, hx, h⟩ := C.bind_eq_ok.1 h
  cases h
  exact absurd rfl hr

/-- **C108.** A message that only the library built for fuzzing accepts is refused by the other one for its time stamp or its
signature, and for nothing else. -/
theorem C108_only {r : Int} {last' : UInt64} {k : ℕ} (hf : recvMsgFuzz buf off len msgno frm rcp sid = .ok 0)
    (h : recvMsg now buf off len msgno frm rcp pk sid eps last = .ok (r, last', k)) (hr : r ≠ 0) : r = 5 ∨ r = 6 := by
  unfold recvMsg at h
  unfold recvMsgFuzz at hf
  obtain ⟨l, hl, h⟩ := C.bind_eq_ok.1 h
  rw [hl, C.ok_bind] at hf
  split at h
  · rename_i h1; rw [if_pos h1] at hf; cases hf
  rename_i h1
  rw [if_neg h1] at hf
  obtain ⟨m, hm, h⟩ := C.bind_eq_ok.1 h
  rw [hm, C.ok_bind] at hf
  split at h
  · rename_i h1; rw [if_pos h1] at hf; cases hf
  rename_i h2
  rw [if_neg h2] at hf
  obtain ⟨f, hf', h⟩ := C.bind_eq_ok.1 h
  rw [hf', C.ok_bind] at hf
  split at h
  · rename_i h1; rw [if_pos h1] at hf; cases hf
  rename_i h3
  rw [if_neg h3] at hf
  obtain ⟨t, ht, h⟩ := C.bind_eq_ok.1 h
  rw [ht, C.ok_bind] at hf
  split at h
  · rename_i h1; rw [if_pos h1] at hf; cases hf
  rename_i h4
  rw [if_neg h4] at hf
  obtain ⟨s, hs, h⟩ := C.bind_eq_ok.1 h
  rw [hs, C.ok_bind] at hf
  split at h
  · rename_i h1; rw [if_pos h1] at hf; cases hf
  obtain ⟨ts, -, h⟩ := C.bind_eq_ok.1 h
  dsimp only at h
  split at h
  · cases h; exact .inl rfl
  split at h
  · cases h
  obtain ⟨x, hx, h⟩ := C.bind_eq_ok.1 h
  obtain ⟨sig, -, h⟩ := C.bind_eq_ok.1 h
  obtain ⟨hdr, -, h⟩ := C.bind_eq_ok.1 h
  split at h
  · cases h; exact absurd rfl hr
  · cases h; exact .inr rfl

/-- **C108.** The library built for fuzzing accepts a message exactly if the five fields of its header are the expected ones,
whatever its signature, its time and its content are. -/
theorem C108_fields (buf : Bytes) (off len : ℕ) (msgno frm rcp : UInt8) (sid : B32) (hb : off + len ≤ buf.length)
    (hl : 111 ≤ len) : ∃ r, recvMsgFuzz buf off len msgno frm rcp sid = .ok r ∧
      (r = 0 ↔ ∃ sig h body, (buf.drop off).take len = encode sig h body ∧
        h.len.toNat = len ∧ h.msgno = msgno ∧ h.frm = frm ∧ h.rcp = rcp ∧ h.sid = sid) := by
  obtain ⟨sig, h, body, he⟩ := exists_fields hb hl
  have hiff : (∃ sig h body, (buf.drop off).take len = encode sig h body ∧
      h.len.toNat = len ∧ h.msgno = msgno ∧ h.frm = frm ∧ h.rcp = rcp ∧ h.sid = sid) ↔
      (h.len.toNat = len ∧ h.msgno = msgno ∧ h.frm = frm ∧ h.rcp = rcp ∧ h.sid = sid) := by
    constructor
    · rintro ⟨sig', h', body', e', h1⟩
      obtain ⟨rfl, rfl, rfl⟩ := encode_inj (he.symm.trans e')
      exact h1
    · exact fun h1 => ⟨sig, h, body, he, h1⟩
  simp only [hiff]
  unfold recvMsgFuzz
  rw [rd_slice hb (by omega), he, encode_len]
  simp only [C.ok_bind]
  rw [htonl_u32 (by simp), beNat_beBytes, Nat.mod_eq_of_lt (by simpa using h.len.toNat_lt)]
  split
  · rename_i h1; exact ⟨_, rfl, by simp [h1]⟩
  rename_i h1
  rw [ld_slice (x := h.msgno) hb (by omega) (by rw [he, encode_msgno])]
  simp only [C.ok_bind]
  split
  · rename_i h2; exact ⟨_, rfl, by simp [h2]⟩
  rename_i h2
  rw [ld_slice (x := h.frm) hb (by omega) (by rw [he, encode_frm])]
  simp only [C.ok_bind]
  split
  · rename_i h3; exact ⟨_, rfl, by simp [h3]⟩
  rename_i h3
  rw [ld_slice (x := h.rcp) hb (by omega) (by rw [he, encode_rcp])]
  simp only [C.ok_bind]
  split
  · rename_i h4; exact ⟨_, rfl, by simp [h4]⟩
  rename_i h4
  rw [rd_slice hb (by omega), he, encode_sid]
  simp only [C.ok_bind, ne_eq, Vector.toList_inj]
  split
  · rename_i h5; exact ⟨_, rfl, by simp [h5]⟩
  rename_i h5
  rw [if_neg (by omega), rd_slice hb (by omega)]
  simp only [C.ok_bind]
  exact ⟨0, rfl, by simp only [ne_eq, not_not] at h1 h2 h3 h4 h5; simp [h1, h2, h3, h4, h5]⟩

end

section Examples
attribute [local instance] Toy.signing

/-- `C108_accepts`: a message that both accept. -/
example : recvMsg 15 (Toy.msg 111 1 0 2 []) 0 111 1 0 2 zero32 zero32 3 5 = .ok (0, 5, 0) ∧
    recvMsgFuzz (Toy.msg 111 1 0 2 []) 0 111 1 0 2 zero32 = .ok 0 := by decide +kernel

/-- `C108_refuses`: one that both refuse. -/
example : recvMsgFuzz (Toy.msg 111 1 0 2 []) 0 111 1 0 3 zero32 = .ok 4 ∧
    recvMsg 15 (Toy.msg 111 1 0 2 []) 0 111 1 0 3 zero32 zero32 3 5 = .ok (4, 5, 0) := by decide +kernel

/-- `C108_only`: one that is too old. -/
example : recvMsgFuzz (Toy.msg 111 1 0 2 []) 0 111 1 0 2 zero32 = .ok 0 ∧
    recvMsg 15 (Toy.msg 111 1 0 2 []) 0 111 1 0 2 zero32 zero32 3 9 = .ok (5, 9, 0) := by decide +kernel

end Examples

end Verif.Props
