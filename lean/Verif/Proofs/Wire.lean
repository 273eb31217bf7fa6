import Verif.Model.Wire
import Verif.Spec.Wire

/-!
# Lemmas about messages
-/

namespace Verif.Wire

open Spec.Wire

theorem leNat_append (a b : Bytes) : leNat (a ++ b) = leNat a + 256 ^ a.length * leNat b := by
  induction a with
  | nil => simp [leNat]
  | cons x a ih => simp only [List.cons_append, leNat, ih, List.length_cons, pow_succ]; ring

theorem beNat_append (a b : Bytes) : beNat (a ++ b) = beNat a * 256 ^ b.length + beNat b := by
  unfold beNat
  rw [List.reverse_append, leNat_append, List.length_reverse]; ring

theorem beNat_lt (b : Bytes) : beNat b < 256 ^ b.length := by
  have := leNat_lt b.reverse
  simpa [beNat] using this

theorem leBytes_beNat_leBytes (k n : ℕ) : leBytes k (beNat (leBytes k n)) = beBytes k n := by
  have := leBytes_leNat (leBytes k n).reverse
  simpa [beNat, beBytes] using this

/-- The memory representation of `htonl x` is the big-endian encoding of `x`. -/
theorem leBytes_htonl (x : UInt32) : leBytes 4 (htonl x).toNat = beBytes 4 x.toNat := by
  have h := beNat_lt (leBytes 4 x.toNat)
  rw [leBytes_length] at h
  unfold htonl
  rw [UInt32.toNat_ofNat_of_lt' (by simpa using h), leBytes_beNat_leBytes]

theorem htonl_u32 {b : Bytes} (h : b.length = 4) : (htonl (u32 b)).toNat = beNat b := by
  have h1 := leNat_lt b
  have h2 := beNat_lt b
  rw [h] at h1 h2
  unfold htonl u32
  rw [UInt32.toNat_ofNat_of_lt' (n := leNat b) (by simpa using h1)]
  have := leBytes_leNat b
  rw [h] at this
  rw [this, UInt32.toNat_ofNat_of_lt' (by simpa using h2)]

theorem htonl_htonl (x : UInt32) : htonl (htonl x) = x := by
  have hx : u32 (leBytes 4 x.toNat) = x := by
    unfold u32
    rw [leNat_leBytes, Nat.mod_eq_of_lt (by simpa using x.toNat_lt), UInt32.ofNat_toNat]
  apply UInt32.toNat_inj.1
  have h1 : htonl x = u32 (beBytes 4 x.toNat) := by
    have h2 : u32 (leBytes 4 (htonl x).toNat) = htonl x := by
      unfold u32
      rw [leNat_leBytes, Nat.mod_eq_of_lt (by simpa using (htonl x).toNat_lt), UInt32.ofNat_toNat]
    rw [← h2, leBytes_htonl]
  rw [h1, htonl_u32 (by simp), beNat_beBytes, Nat.mod_eq_of_lt (by simpa using x.toNat_lt)]

theorem htonll_toNat (n : UInt64) :
    (htonll n).toNat = (htonl n.toUInt32).toNat * 2 ^ 32 + (htonl (n >>> 32).toUInt32).toNat := by
  have ha := (htonl n.toUInt32).toNat_lt
  have hb := (htonl (n >>> 32).toUInt32).toNat_lt
  unfold htonll
  rw [UInt64.toNat_add, UInt64.toNat_shiftLeft]
  simp only [UInt32.toNat_toUInt64, UInt64.reduceToNat, Nat.shiftLeft_eq, Nat.reduceMod]
  generalize (htonl n.toUInt32).toNat = a at *
  generalize (htonl (n >>> 32).toUInt32).toNat = b at *
  omega

theorem leBytes_add (j k n : ℕ) : leBytes (j + k) n = leBytes j n ++ leBytes k (n / 256 ^ j) := by
  induction j generalizing n with
  | zero => simp [leBytes]
  | succ j ih =>
    rw [show j + 1 + k = (j + k) + 1 by omega]
    simp only [leBytes, ih, List.cons_append, pow_succ', Nat.div_div_eq_div_mul]

/-- The memory representation of `htonll x` is the big-endian encoding of `x`. -/
theorem leBytes_htonll (n : UInt64) : leBytes 8 (htonll n).toNat = beBytes 8 n.toNat := by
  have hn := n.toNat_lt
  have h1 := leBytes_htonl n.toUInt32
  have h2 := leBytes_htonl (n >>> 32).toUInt32
  have hb := (htonl (n >>> 32).toUInt32).toNat_lt
  have hlo : n.toUInt32.toNat = n.toNat % 2 ^ 32 := by simp
  have hhi : (n >>> 32).toUInt32.toNat = n.toNat / 2 ^ 32 := by
    simp only [UInt64.toNat_toUInt32, UInt64.toNat_shiftRight, UInt64.reduceToNat, Nat.reduceMod,
      Nat.shiftRight_eq_div_pow]
    omega
  rw [hlo] at h1
  rw [hhi] at h2
  rw [htonll_toNat, show (8 : ℕ) = 4 + 4 from rfl, leBytes_add 4 4]
  have e1 : ∀ a b : ℕ, b < 2 ^ 32 → leBytes 4 (a * 2 ^ 32 + b) = leBytes 4 b := by
    intro a b hb
    apply leNat_inj (by simp)
    rw [leNat_leBytes, leNat_leBytes]
    norm_num at *
  rw [e1 _ _ hb, h2]
  have e2 : ∀ a b : ℕ, b < 2 ^ 32 → (a * 2 ^ 32 + b) / 256 ^ 4 = a := by
    intro a b hb; norm_num at *; omega
  rw [e2 _ _ hb, h1]
  unfold beBytes
  rw [leBytes_add 4 4, List.reverse_append]
  congr 2
  apply leNat_inj (by simp)
  rw [leNat_leBytes, leNat_leBytes]
  norm_num

theorem htonll_u64 {b : Bytes} (h : b.length = 8) : (htonll (u64 b)).toNat = beNat b := by
  have hb := leNat_lt b
  rw [h] at hb
  have h1 : (u64 b).toNat = leNat b := by
    unfold u64
    rw [UInt64.toNat_ofNat_of_lt' (by simpa using hb)]
  have h2 := leBytes_htonll (u64 b)
  have h3 := congrArg leNat h2
  rw [leNat_leBytes, Nat.mod_eq_of_lt (by simpa using (htonll (u64 b)).toNat_lt)] at h3
  rw [h3, h1]
  have := leBytes_leNat b
  rw [h] at this
  unfold beBytes beNat
  rw [this]

theorem htonll_htonll (x : UInt64) : htonll (htonll x) = x := by
  apply UInt64.toNat_inj.1
  have h1 : u64 (leBytes 8 (htonll x).toNat) = htonll x := by
    unfold u64
    rw [leNat_leBytes, Nat.mod_eq_of_lt (by simpa using (htonll x).toNat_lt), UInt64.ofNat_toNat]
  rw [← h1, htonll_u64 (by simp), leBytes_htonll, beNat_beBytes, Nat.mod_eq_of_lt (by simpa using x.toNat_lt)]

/-! ## Serialised messages -/

theorem toB64_list {l : Bytes} (h : l.length = 64) : (toB64 l).toList = l := by
  apply List.ext_getElem
  · simp [h]
  · intro i h1 h2
    simp [toB64, h2]

@[simp] theorem toB64_toList (v : B64) : toB64 v.toList = v := by
  apply Vector.toList_inj.1
  exact toB64_list (by simp)

theorem encode_header_length (h : Header) : h.encode.length = 47 := by
  simp [Header.encode]

theorem encode_length (sig : B64) (h : Header) (body : Bytes) : (encode sig h body).length = 111 + body.length := by
  simp [encode, encode_header_length]; omega

theorem take_eq_append {l : Bytes} (k : ℕ) : l = l.take k ++ l.drop k := by simp

/-- Every byte string of header size is a serialised message. -/
theorem exists_encode (m : Bytes) (h : 111 ≤ m.length) :
    ∃ sig hd, m = encode sig hd (m.drop 111) := by
  refine ⟨toB64 (m.take 64), ⟨m[64], UInt32.ofNat (beNat ((m.drop 65).take 4)), m[69], m[70],
    UInt64.ofNat (beNat ((m.drop 71).take 8)), toB32 ((m.drop 79).take 32)⟩, ?_⟩
  unfold encode Header.encode
  dsimp only
  rw [toB64_list (by simp; omega), toB32_list (by simp; omega)]
  have l1 : ((m.drop 65).take 4).length = 4 := by simp; omega
  have l2 : ((m.drop 71).take 8).length = 8 := by simp; omega
  have b1 := beNat_lt ((m.drop 65).take 4)
  have b2 := beNat_lt ((m.drop 71).take 8)
  rw [l1] at b1
  rw [l2] at b2
  rw [UInt32.toNat_ofNat_of_lt' (by simpa using b1), UInt64.toNat_ofNat_of_lt' (by simpa using b2)]
  have e1 := beBytes_beNat ((m.drop 65).take 4)
  have e2 := beBytes_beNat ((m.drop 71).take 8)
  rw [l1] at e1
  rw [l2] at e2
  rw [e1, e2]
  have s : ∀ (k j : ℕ), m.drop k = (m.drop k).take j ++ m.drop (k + j) := by
    intro k j
    conv_lhs => rw [← List.take_append_drop j (m.drop k)]
    rw [List.drop_drop]
  have g : ∀ k (hk : k < m.length), [m[k]] = (m.drop k).take 1 := by
    intro k hk
    rw [List.drop_eq_getElem_cons hk, List.take_succ_cons, List.take_zero]
  rw [g 64, g 69, g 70]
  conv_lhs => rw [← List.take_append_drop 64 m, s 64 1, s 65 4, s 69 1, s 70 1, s 71 8, s 79 32]
  simp

theorem rd_slice {buf : Bytes} {off len a k : ℕ} (h : off + len ≤ buf.length) (hk : a + k ≤ len) :
    rd buf (off + a) k = .ok ((((buf.drop off).take len).drop a).take k) := by
  rw [rd_ok (by omega), List.drop_take, List.take_take, List.drop_drop, Nat.min_eq_left (by omega)]

theorem ld_slice {buf : Bytes} {off len a : ℕ} {x : UInt8} (h : off + len ≤ buf.length) (hk : a < len)
    (hx : (((buf.drop off).take len).drop a).take 1 = [x]) : ld buf (off + a) = .ok x := by
  rw [ld_ok (by omega)]
  rw [List.drop_take, List.take_take, List.drop_drop, Nat.min_eq_left (by omega),
    List.drop_eq_getElem_cons (by omega), List.take_succ_cons] at hx
  simp at hx
  rw [hx]

section
variable (sig : B64) (h : Header) (body : Bytes)

theorem encode_sig : (encode sig h body).take 64 = sig.toList := by
  simp [encode]

theorem encode_hdr : ((encode sig h body).drop 64).take 47 = h.encode := by
  have := encode_header_length h
  unfold encode
  rw [List.append_assoc, List.drop_append_of_le_length (by simp), List.drop_of_length_le (by simp),
    List.nil_append, List.take_append_of_le_length (by omega), List.take_of_length_le (by omega)]

theorem encode_body : (encode sig h body).drop 111 = body := by
  have := encode_header_length h
  unfold encode
  rw [List.drop_append, List.drop_of_length_le (by simp [this])]
  simp [this]

theorem drop_take_encode (a k : ℕ) (hk : a + k ≤ 47) :
    ((encode sig h body).drop (64 + a)).take k = (h.encode.drop a).take k := by
  rw [← encode_hdr sig h body, List.drop_take, List.take_take, List.drop_drop, Nat.min_eq_left (by omega)]

theorem encode_msgno : ((encode sig h body).drop 64).take 1 = [h.msgno] := by
  rw [drop_take_encode sig h body 0 1 (by omega)]; simp [Header.encode]

theorem encode_len : ((encode sig h body).drop 65).take 4 = beBytes 4 h.len.toNat := by
  rw [drop_take_encode sig h body 1 4 (by omega)]; simp [Header.encode]

theorem encode_frm : ((encode sig h body).drop 69).take 1 = [h.frm] := by
  rw [drop_take_encode sig h body 5 1 (by omega)]; simp [Header.encode]

theorem drop_be4 (k n : ℕ) (hk : 4 ≤ k) : (beBytes 4 n).drop k = [] := List.drop_of_length_le (by simp [hk])

theorem encode_rcp : ((encode sig h body).drop 70).take 1 = [h.rcp] := by
  rw [drop_take_encode sig h body 6 1 (by omega)]
  simp [Header.encode, List.drop_append, drop_be4]

theorem encode_ts : ((encode sig h body).drop 71).take 8 = beBytes 8 h.ts.toNat := by
  rw [drop_take_encode sig h body 7 8 (by omega)]; simp [Header.encode, List.drop_append, drop_be4]

theorem encode_sid : ((encode sig h body).drop 79).take 32 = h.sid.toList := by
  rw [drop_take_encode sig h body 15 32 (by omega)]
  simp [Header.encode, List.drop_append, drop_be4]

end

theorem encode_inj {sig sig' : B64} {h h' : Header} {body body' : Bytes}
    (e : encode sig h body = encode sig' h' body') : sig = sig' ∧ h = h' ∧ body = body' := by
  have h1 := encode_sig sig h body
  have h2 := encode_msgno sig h body
  have h3 := encode_len sig h body
  have h4 := encode_frm sig h body
  have h5 := encode_rcp sig h body
  have h6 := encode_ts sig h body
  have h7 := encode_sid sig h body
  have h8 := encode_body sig h body
  rw [e] at h1 h2 h3 h4 h5 h6 h7 h8
  rw [encode_sig] at h1
  rw [encode_msgno] at h2
  rw [encode_len] at h3
  rw [encode_frm] at h4
  rw [encode_rcp] at h5
  rw [encode_ts] at h6
  rw [encode_sid] at h7
  rw [encode_body] at h8
  have l3 := congrArg beNat h3
  have l6 := congrArg beNat h6
  rw [beNat_beBytes, beNat_beBytes, Nat.mod_eq_of_lt (by simpa using h'.len.toNat_lt),
    Nat.mod_eq_of_lt (by simpa using h.len.toNat_lt)] at l3
  rw [beNat_beBytes, beNat_beBytes, Nat.mod_eq_of_lt (by simpa using h'.ts.toNat_lt),
    Nat.mod_eq_of_lt (by simpa using h.ts.toNat_lt)] at l6
  refine ⟨(Vector.toList_inj.1 h1).symm, ?_, h8.symm⟩
  cases h; cases h'
  simp only [Header.mk.injEq]
  simp only [List.cons.injEq, and_true] at h2 h4 h5
  exact ⟨h2.symm, (UInt32.toNat_inj.1 l3).symm, h4.symm, h5.symm, (UInt64.toNat_inj.1 l6).symm,
    (Vector.toList_inj.1 h7).symm⟩

set_option linter.unusedSectionVars false

variable [Signing]

/-- `recv_msg` as a function of the fields of the message. -/
def recvPure (now : UInt64) (sig : B64) (h : Header) (len : ℕ) (msgno frm rcp : UInt8) (pk : B32) (sid : B32)
    (eps last : UInt64) : Int × UInt64 × ℕ :=
  if h.len.toNat ≠ len then (1, last, 0)
  else if h.msgno ≠ msgno then (2, last, 0)
  else if h.frm ≠ frm then (3, last, 0)
  else if h.rcp ≠ rcp then (4, last, 0)
  else if h.sid ≠ sid then (7, last, 0)
  else if (checkTs now eps last h.ts).1 ≠ 0 then (5, (checkTs now eps last h.ts).2)
  else if Signing.verify pk h.encode sig then (0, (checkTs now eps last h.ts).2)
  else (6, (checkTs now eps last h.ts).2)

theorem recvMsg_encode {now : UInt64} {buf : Bytes} {off len : ℕ} {msgno frm rcp : UInt8} {pk : B32} {sid : B32}
    {eps last : UInt64} {sig : B64} {h : Header} {body : Bytes} (hb : off + len ≤ buf.length) (hl : 111 ≤ len)
    (he : (buf.drop off).take len = encode sig h body) :
    recvMsg now buf off len msgno frm rcp pk sid eps last =
      .ok (recvPure now sig h len msgno frm rcp pk sid eps last) := by
  unfold recvMsg recvPure
  rw [rd_slice hb (by omega), he, encode_len]
  simp only [C.ok_bind]
  rw [htonl_u32 (by simp), beNat_beBytes, Nat.mod_eq_of_lt (by simpa using h.len.toNat_lt)]
  split
  · rfl
  rw [ld_slice (x := h.msgno) hb (by omega) (by rw [he, encode_msgno])]
  simp only [C.ok_bind]
  split
  · rfl
  rw [ld_slice (x := h.frm) hb (by omega) (by rw [he, encode_frm])]
  simp only [C.ok_bind]
  split
  · rfl
  rw [ld_slice (x := h.rcp) hb (by omega) (by rw [he, encode_rcp])]
  simp only [C.ok_bind]
  split
  · rfl
  rw [rd_slice hb (by omega), he, encode_sid]
  simp only [C.ok_bind, ne_eq, Vector.toList_inj]
  split
  · rfl
  rw [rd_slice hb (by omega), he, encode_ts]
  simp only [C.ok_bind]
  have hts : htonll (u64 (beBytes 8 h.ts.toNat)) = h.ts := by
    apply UInt64.toNat_inj.1
    rw [htonll_u64 (by simp), beNat_beBytes, Nat.mod_eq_of_lt (by simpa using h.ts.toNat_lt)]
  rw [hts]
  split
  · rfl
  rw [if_neg (by omega), rd_slice hb (by omega)]
  simp only [C.ok_bind]
  have h0 := rd_slice (a := 0) (k := 64) hb (by omega)
  rw [Nat.add_zero, List.drop_zero, he, encode_sig] at h0
  rw [h0]
  simp only [C.ok_bind, hdrSize, Nat.reduceSub]
  rw [rd_slice hb (by omega), he, encode_hdr]
  simp only [C.ok_bind, toB64_toList]
  split <;> rfl

omit [Signing] in
/-- The message in `buf` at `off`, as fields. -/
theorem exists_fields {buf : Bytes} {off len : ℕ} (hb : off + len ≤ buf.length) (hl : 111 ≤ len) :
    ∃ sig h body, (buf.drop off).take len = encode sig h body :=
  let ⟨sig, h, e⟩ := exists_encode ((buf.drop off).take len) (by simp; omega)
  ⟨sig, h, _, e⟩

theorem recvMsg_safe {now : UInt64} {buf : Bytes} {off len : ℕ} {msgno frm rcp : UInt8} {pk : B32} {sid : B32}
    {eps last : UInt64} (hb : off + len ≤ buf.length) (hl : 111 ≤ len) :
    (recvMsg now buf off len msgno frm rcp pk sid eps last).Safe := by
  obtain ⟨sig, h, body, e⟩ := exists_fields hb hl
  exact ⟨_, recvMsg_encode hb hl e⟩

theorem wr_mid {pre x y post : Bytes} {off : ℕ} (ho : off = pre.length) (hl : x.length = y.length) :
    wr (pre ++ (x ++ post)) off y = .ok (pre ++ (y ++ post)) := by
  subst ho
  rw [wr_ok (by simp; omega)]
  simp [List.drop_append, ← hl]

theorem rd_mid {pre x post : Bytes} {off k : ℕ} (ho : off = pre.length) (hl : x.length = k) :
    rd (pre ++ (x ++ post)) off k = .ok x := by
  subst ho hl
  rw [rd_ok (by simp)]
  simp

/-- `send_msg` writes a signed header in front of the body. -/
theorem sendMsg_eq {now : UInt64} {buf : Bytes} {off len : ℕ} {msgno frm rcp : UInt8} {sk : B64} {sid : B32}
    (hb : off + 111 ≤ buf.length) :
    sendMsg now buf off len msgno frm rcp sk sid =
      .ok (buf.take off ++ (encode (Signing.sign sk (Header.mk msgno (UInt32.ofNat len) frm rcp now sid).encode)
        ⟨msgno, UInt32.ofNat len, frm, rcp, now, sid⟩ [] ++ buf.drop (off + 111))) := by
  obtain ⟨p, s, a, l, f, t, ts, sd, post, hp, hs, ha, hl, hf, ht, hts, hsd, rfl⟩ :
      ∃ p s a l f t ts sd post : Bytes, p.length = off ∧ s.length = 64 ∧ a.length = 1 ∧
        l.length = 4 ∧ f.length = 1 ∧ t.length = 1 ∧ ts.length = 8 ∧ sd.length = 32 ∧
        buf = p ++ (s ++ (a ++ (l ++ (f ++ (t ++ (ts ++ (sd ++ post))))))) := by
    refine ⟨buf.take off, (buf.drop off).take 64, (buf.drop (off + 64)).take 1, (buf.drop (off + 65)).take 4,
      (buf.drop (off + 69)).take 1, (buf.drop (off + 70)).take 1, (buf.drop (off + 71)).take 8,
      (buf.drop (off + 79)).take 32, buf.drop (off + 111), ?_, ?_, ?_, ?_, ?_, ?_, ?_, ?_, ?_⟩
    any_goals (simp; omega)
    have s : ∀ (k j : ℕ), buf.drop k = (buf.drop k).take j ++ buf.drop (k + j) := by
      intro k j
      conv_lhs => rw [← List.take_append_drop j (buf.drop k)]
      rw [List.drop_drop]
    conv_lhs => rw [← List.take_append_drop off buf, s off 64, s (off + 64) 1, s (off + 65) 4, s (off + 69) 1,
      s (off + 70) 1, s (off + 71) 8, s (off + 79) 32]
  have hlen : (leBytes 4 (htonl (UInt32.ofNat len)).toNat).length = 4 := by simp
  have htl : (leBytes 8 (htonll now).toNat).length = 8 := by simp
  generalize hA : leBytes 4 (htonl (UInt32.ofNat len)).toNat = A at hlen
  generalize hB : leBytes 8 (htonll now).toNat = B at htl
  have hE : (Header.mk msgno (UInt32.ofNat len) frm rcp now sid).encode =
      [msgno] ++ (A ++ ([frm] ++ ([rcp] ++ (B ++ sid.toList)))) := by
    rw [← hA, ← hB, leBytes_htonl, leBytes_htonll]
    simp [Header.encode]
  unfold sendMsg
  rw [hA, hB]
  have w1 := wr_mid (pre := p ++ (s ++ a)) (x := l) (y := A) (off := off + 65)
    (post := f ++ (t ++ (ts ++ (sd ++ post)))) (by simp; omega) (by omega)
  simp only [List.append_assoc] at w1
  rw [w1, C.ok_bind]
  have w2 := wr_mid (pre := p ++ s) (x := a) (y := [msgno]) (off := off + 64)
    (post := A ++ (f ++ (t ++ (ts ++ (sd ++ post))))) (by simp; omega) (by simpa using ha)
  simp only [List.append_assoc] at w2
  rw [w2, C.ok_bind]
  have w3 := wr_mid (pre := p ++ (s ++ ([msgno] ++ A))) (x := f) (y := [frm]) (off := off + 69)
    (post := t ++ (ts ++ (sd ++ post))) (by simp; omega) (by simpa using hf)
  simp only [List.append_assoc] at w3
  rw [w3, C.ok_bind]
  have w4 := wr_mid (pre := p ++ (s ++ ([msgno] ++ (A ++ [frm])))) (x := t) (y := [rcp]) (off := off + 70)
    (post := ts ++ (sd ++ post)) (by simp; omega) (by simpa using ht)
  simp only [List.append_assoc] at w4
  rw [w4, C.ok_bind]
  have w5 := wr_mid (pre := p ++ (s ++ ([msgno] ++ (A ++ ([frm] ++ [rcp]))))) (x := ts) (y := B) (off := off + 71)
    (post := sd ++ post) (by simp; omega) (by omega)
  simp only [List.append_assoc] at w5
  rw [w5, C.ok_bind]
  have w6 := wr_mid (pre := p ++ (s ++ ([msgno] ++ (A ++ ([frm] ++ ([rcp] ++ B)))))) (x := sd) (y := sid.toList)
    (off := off + 79) (post := post) (by simp; omega) (by simpa using hsd)
  simp only [List.append_assoc] at w6
  rw [w6, C.ok_bind]
  have r1 := rd_mid (pre := p ++ s) (x := [msgno] ++ (A ++ ([frm] ++ ([rcp] ++ (B ++ sid.toList)))))
    (off := off + 64) (k := 47) (post := post) (by simp; omega) (by simp [hlen, htl])
  simp only [List.append_assoc] at r1
  rw [show hdrSize - 64 = 47 from rfl, r1, C.ok_bind]
  have w7 := wr_mid (pre := p) (x := s)
    (y := (Signing.sign sk ([msgno] ++ (A ++ ([frm] ++ ([rcp] ++ (B ++ sid.toList)))))).toList)
    (off := off) (post := [msgno] ++ (A ++ ([frm] ++ ([rcp] ++ (B ++ (sid.toList ++ post)))))) (by omega) (by simpa using hs)
  rw [w7]
  unfold encode
  rw [hE]
  have t1 : (p ++ (s ++ (a ++ (l ++ (f ++ (t ++ (ts ++ (sd ++ post)))))))).take off = p := by
    rw [← hp]; simp
  have t2 : (p ++ (s ++ (a ++ (l ++ (f ++ (t ++ (ts ++ (sd ++ post)))))))).drop (off + 111) = post := by
    have e : p ++ (s ++ (a ++ (l ++ (f ++ (t ++ (ts ++ (sd ++ post))))))) =
      (p ++ (s ++ (a ++ (l ++ (f ++ (t ++ (ts ++ sd))))))) ++ post := by simp
    rw [e, List.drop_append_of_le_length (by simp; omega), List.drop_of_length_le (by simp; omega),
      List.nil_append]
  rw [t1, t2]
  simp only [List.append_assoc, List.append_nil]

end Verif.Wire
