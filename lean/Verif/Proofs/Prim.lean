import Verif.Spec.Prim
import Mathlib.Data.List.GetD
import Mathlib.Tactic.Tauto

/-!
# Memory lemmas for the Noise primitives
-/

namespace Verif.Prim

open Spec.Prim

variable {α β : Type} {m m1 : Mem} {a c n k sp : ℕ} {b d p q : Bytes}

theorem bind_ok {x : P α} {f : α → P β} {v : α} (h : x m = .ok (v, m1)) : (x >>= f) m = f v m1 := by
  show (x m >>= fun r => f r.1 r.2) = _
  rw [h]; rfl

theorem pure_run (v : α) : (pure v : P α) m = .ok (v, m) := rfl

/-! ### Regions -/

theorem holds_nil : Holds m a [] := fun i h => by simp at h

theorem holds_cons {x : UInt8} : Holds m a (x :: b) ↔ m a = .val x ∧ Holds m (a + 1) b := by
  constructor
  · intro h
    refine ⟨h 0 (by simp), fun i hi => ?_⟩
    have := h (i + 1) (by simpa using hi)
    rw [show a + 1 + i = a + (i + 1) by omega, this]
    simp
  · rintro ⟨h1, h2⟩ i hi
    cases i with
    | zero => simpa using h1
    | succ i =>
      have := h2 i (by simpa using hi)
      rw [show a + (i + 1) = a + 1 + i by omega, this]
      simp

theorem holds_append : Holds m a (b ++ d) ↔ Holds m a b ∧ Holds m (a + b.length) d := by
  induction b generalizing a with
  | nil => simp [holds_nil]
  | cons x r ih =>
    rw [List.cons_append, holds_cons, holds_cons, ih, List.length_cons, show a + (r.length + 1) = a + 1 + r.length by omega]
    exact and_assoc.symm

theorem _root_.Verif.Spec.Prim.Holds.space (h : Holds m a b) : Space m a b.length := by
  intro i hi
  rw [h i hi]
  simp

theorem wrote_in (h : a ≤ n) (h' : n < a + b.length) : wrote a b m n = .val (b.getD (n - a) 0) := by
  rw [wrote, if_pos ⟨h, h'⟩]

theorem wrote_out (h : n < a ∨ a + b.length ≤ n) : wrote a b m n = m n := by
  rw [wrote, if_neg (by omega)]

theorem holds_wrote : Holds (wrote a b m) a b := by
  intro i hi
  rw [wrote_in (by omega) (by omega), Nat.add_sub_cancel_left, List.getD_eq_getElem _ _ hi]

theorem _root_.Verif.Spec.Prim.Holds.wrote (h : Holds m c d) (hA : Apart a b.length c d.length) : Holds (wrote a b m) c d := by
  intro i hi
  rw [wrote_out ?_, h i hi]
  unfold Apart at hA
  omega

theorem _root_.Verif.Spec.Prim.Space.wrote (h : Space m c n) : Space (wrote a b m) c n := by
  intro i hi
  unfold Spec.Prim.wrote
  split
  · simp
  · exact h i hi

theorem wrote_nil : wrote a [] m = m := by
  funext x
  exact wrote_out (by simp; omega)

theorem wrote_wrote (h : b.length = d.length) : wrote a b (wrote a d m) = wrote a b m := by
  funext x
  unfold wrote
  rw [← h]
  split <;> rfl

theorem wrote_comm (h : Apart a b.length c d.length) : wrote a b (wrote c d m) = wrote c d (wrote a b m) := by
  funext x
  unfold wrote
  unfold Apart at h
  split_ifs <;> first | rfl | omega

theorem wrote_append : wrote (a + b.length) d (wrote a b m) = wrote a (b ++ d) m := by
  funext x
  unfold wrote
  simp only [List.length_append]
  split_ifs with h1 h2 h2 h3 h3 <;> first | rfl | omega | skip
  · rw [List.getD_append_right _ _ _ _ (by omega), Nat.sub_add_eq]
  · rw [List.getD_append _ _ _ _ (by omega)]

/-- Replace a piece of a region that has been written. -/
theorem wrote_piece {b' : Bytes} (h : b'.length = b.length) :
    wrote (a + p.length) b' (wrote a (p ++ (b ++ q)) m) = wrote a (p ++ (b' ++ q)) m := by
  rw [← wrote_append, ← wrote_append, ← wrote_append, ← wrote_append]
  rw [wrote_comm (by unfold Apart; omega), wrote_wrote h, h]

theorem holds_piece : Holds (wrote a (p ++ (b ++ q)) m) (a + p.length) b := by
  have h : Holds (wrote a (p ++ (b ++ q)) m) a (p ++ (b ++ q)) := holds_wrote
  exact (holds_append.1 (holds_append.1 h).2).1

/-- Memory in which a region is indeterminate. -/
def undef (a n : ℕ) (m : Mem) : Mem := fun x => if a ≤ x ∧ x < a + n then .uninit else m x

theorem locals_run : locals a n m = .ok ((), undef a n m) := rfl

theorem wrote_undef (h : b.length = n) : wrote a b (undef a n m) = wrote a b m := by
  funext x
  unfold wrote undef
  rw [h]
  split <;> rfl

theorem _root_.Verif.Spec.Prim.Holds.undef (h : Holds m c d) (hA : Apart a n c d.length) : Holds (undef a n m) c d := by
  intro i hi
  unfold Prim.undef
  rw [if_neg ?_, h i hi]
  unfold Apart at hA
  omega

theorem _root_.Verif.Spec.Prim.Space.undef (h : Space m c k) : Space (undef a n m) c k := by
  intro i hi
  unfold Prim.undef
  split
  · simp
  · exact h i hi

theorem space_undef {j : ℕ} (h : j + k ≤ n) : Space (undef a n m) (a + j) k := by
  intro i hi
  unfold undef
  rw [if_pos (by omega)]
  simp

/-! ### Loads and stores -/

theorem load1_run {x : UInt8} (h : m a = .val x) : load1 a m = .ok (x, m) := by simp [load1, h]

theorem store1_run {x : UInt8} (h : m a ≠ .none) : store1 a x m = .ok ((), wrote a [x] m) := by
  have e : (fun y => if y = a then Cell.val x else m y) = wrote a [x] m := by
    funext y
    unfold wrote
    by_cases hy : y = a
    · subst hy; simp
    · rw [if_neg hy, if_neg (by simp; omega)]
  unfold store1
  rw [e]
  split
  · contradiction
  · rfl

theorem get_run (h : Holds m a b) (hn : n = b.length) : get a n m = .ok (b, m) := by
  subst hn
  induction b generalizing a with
  | nil => rfl
  | cons x r ih =>
    rw [holds_cons] at h
    rw [List.length_cons, get, bind_ok (load1_run h.1), bind_ok (ih h.2), pure_run]

theorem put_run (h : Space m a b.length) : put a b m = .ok ((), wrote a b m) := by
  induction b generalizing a m with
  | nil => rw [wrote_nil]; rfl
  | cons x r ih =>
    have h0 : m a ≠ .none := h 0 (by simp)
    rw [put, bind_ok (store1_run h0), ih ?_]
    · rw [show a + 1 = a + [x].length from rfl, wrote_append]; rfl
    · refine Space.wrote fun i hi => ?_
      rw [show a + 1 + i = a + (i + 1) by omega]
      exact h (i + 1) (by simpa using hi)

theorem fill_run (h : Space m a n) : fill a 0 n m = .ok ((), cleared a n m) := put_run (by simpa using h)

theorem zeros_run : zeros a n m = .ok ((), cleared a n m) := by
  rw [zeros, bind_ok locals_run, fill_run (by simpa using space_undef (a := a) (m := m) (j := 0) (k := n) (by omega)), cleared,
    wrote_undef (by simp), cleared]

theorem memcpy_run {src dst : ℕ} (h : Holds m src b) (hn : n = b.length) (hd : Space m dst n) (hA : Apart dst n src n) :
    memcpy dst src n m = .ok ((), wrote dst b m) := by
  have hc : n = 0 ∨ dst + n ≤ src ∨ src + n ≤ dst := by unfold Apart at hA; omega
  rw [memcpy, if_pos hc, bind_ok (get_run h hn), put_run (hn ▸ hd)]

theorem xorKey_run {v : UInt8} (h : Holds m a b) (hn : n = b.length) :
    xorKey a n v m = .ok ((), wrote a (b.map (· ^^^ v)) m) := by
  subst hn
  induction b generalizing a m with
  | nil => rw [List.map_nil, wrote_nil]; rfl
  | cons x r ih =>
    rw [holds_cons] at h
    rw [List.length_cons, xorKey, bind_ok (load1_run h.1), bind_ok (store1_run (by rw [h.1]; simp)),
      ih (h.2.wrote (by unfold Apart; simp)), show a + 1 = a + [x ^^^ v].length from rfl, wrote_append]
    rfl

theorem xorKey_wrote {v : UInt8} (hn : n = b.length) :
    xorKey a n v (wrote a b m) = .ok ((), wrote a (b.map (· ^^^ v)) m) := by
  rw [xorKey_run holds_wrote hn, wrote_wrote (by simp)]

/-! ### Comparison -/

theorem or_eq_zero {x y : UInt8} : x ||| y = 0 ↔ x = 0 ∧ y = 0 := by
  constructor
  · intro h
    have h' := congrArg UInt8.toNat h
    rw [UInt8.toNat_or] at h'
    have h1 := Nat.left_le_or (n := x.toNat) (m := y.toNat)
    have h2 := Nat.right_le_or (n := x.toNat) (m := y.toNat)
    have h0 : (0 : UInt8).toNat = 0 := rfl
    rw [h0] at h'
    exact ⟨UInt8.toNat_inj.1 (by rw [h0]; omega), UInt8.toNat_inj.1 (by rw [h0]; omega)⟩
  · rintro ⟨rfl, rfl⟩; rfl

theorem eqLoop_run {acc : UInt8} (h1 : Holds m a b) (h2 : Holds m c d) (hn : n = b.length) (hl : b.length = d.length) :
    ∃ r, eqLoop a c n acc m = .ok (r, m) ∧ (r = 0 ↔ acc = 0 ∧ b = d) := by
  subst hn
  induction b generalizing a c d acc with
  | nil =>
    cases d with
    | nil => exact ⟨acc, rfl, by simp⟩
    | cons y s => simp at hl
  | cons x r ih =>
    cases d with
    | nil => simp at hl
    | cons y s =>
      rw [holds_cons] at h1 h2
      obtain ⟨z, hz, hz'⟩ := ih (acc := (x ^^^ y) ||| acc) h1.2 h2.2 (by simpa using hl)
      refine ⟨z, ?_, ?_⟩
      · rw [List.length_cons, eqLoop, bind_ok (load1_run h1.1), bind_ok (load1_run h2.1), hz]
      · rw [hz', or_eq_zero, UInt8.xor_eq_zero_iff, List.cons.injEq]
        tauto

theorem lbytesEq_run {len : UInt32} (h1 : Holds m a b) (h2 : Holds m c d) (hn : len.toNat = b.length)
    (hl : b.length = d.length) : lbytesEq len a c m = .ok (decide (b = d), m) := by
  obtain ⟨r, hr, hr'⟩ := eqLoop_run (acc := 0) h1 h2 hn hl
  rw [lbytesEq, bind_ok hr, pure_run]
  congr 2
  by_cases h : b = d
  · simp [h, hr'.2 ⟨rfl, h⟩]
  · have : r ≠ 0 := fun h0 => h (hr'.1 h0).2
    simp [h, this]

/-! ### Nonces -/

theorem leBytes_eq_map : ∀ k n : ℕ, leBytes k n = (List.range k).map fun i => UInt8.ofNat (n / 256 ^ i)
  | 0, _ => rfl
  | k + 1, n => by
    rw [leBytes, leBytes_eq_map k, List.range_succ_eq_map, List.map_cons, List.map_map]
    congr 1
    · apply UInt8.toNat_inj.1; simp
    · apply List.map_congr_left
      intro i _
      simp [Nat.div_div_eq_div_mul, pow_succ']

theorem nonce_eq (n : UInt64) : nonce n = List.replicate 4 0 ++ (leBytes 8 n.toNat ++ []) := by
  rw [nonce, leBytes_eq_map, List.append_nil]; rfl

theorem nonce_length (n : UInt64) : (nonce n).length = 12 := by simp [nonce]

theorem store64_cleared {v : UInt64} : store64 (sp + 4) v (cleared sp 12 m) = .ok ((), wrote sp (nonce v) m) := by
  have e : (List.replicate 12 0 : Bytes) = List.replicate 4 0 ++ (List.replicate 8 0 ++ []) := rfl
  have h4 : sp + 4 = sp + (List.replicate 4 (0 : UInt8)).length := rfl
  rw [store64, cleared, e, put_run, nonce_eq]
  · conv_lhs => rw [h4]
    rw [wrote_piece (by simp)]
  · have := (holds_piece (m := m) (a := sp) (p := List.replicate 4 0) (b := List.replicate 8 0) (q := [])).space
    simpa using this

/-! ### Authenticated encryption -/

section
variable [Aead]

theorem aeadEncrypt_run {key aad plain cipher : ℕ} {nc : UInt64} {aadLen plen : UInt32} {kb ad pb : Bytes}
    (hk : Holds m key kb) (hkl : kb.length = 32) (ha : Holds m aad ad) (hal : aadLen.toNat = ad.length)
    (hp : Holds m plain pb) (hpl : plen.toNat = pb.length) (hc : Space m cipher (pb.length + 16))
    (ak : Apart sp 12 key 32) (aa : Apart sp 12 aad ad.length) (ap : Apart sp 12 plain pb.length)
    (ac : Apart sp 12 cipher (pb.length + 16)) :
    aeadEncrypt sp key nc aadLen aad plen plain cipher m =
      .ok ((), cleared sp 12 (wrote cipher (Aead.enc kb (nonce nc) ad pb) m)) := by
  have hl : (nonce nc).length = 12 := nonce_length nc
  have he : (Aead.enc kb (nonce nc) ad pb).length = pb.length + 16 := Aead.enc_length ..
  rw [aeadEncrypt, bind_ok zeros_run, bind_ok store64_cleared,
    bind_ok (get_run (hp.wrote (by rw [hl]; exact ap)) hpl), bind_ok (get_run (ha.wrote (by rw [hl]; exact aa)) hal),
    bind_ok (get_run holds_wrote hl.symm), bind_ok (get_run (hk.wrote (by rw [hl, hkl]; exact ak)) hkl.symm),
    bind_ok (put_run (Space.wrote (by rw [he]; exact hc))), wrote_comm (by rw [he, hl]; unfold Apart at *; omega),
    fill_run ?_, cleared, wrote_wrote (by simp [hl])]
  · rfl
  · have := (holds_wrote (m := wrote cipher (Aead.enc kb (nonce nc) ad pb) m) (a := sp) (b := nonce nc)).space
    rwa [hl] at this

theorem aeadDecrypt_run {key aad plain cipher : ℕ} {nc : UInt64} {aadLen plen : UInt32} {kb ad cb : Bytes}
    (hk : Holds m key kb) (hkl : kb.length = 32) (ha : Holds m aad ad) (hal : aadLen.toNat = ad.length)
    (hp : Holds m cipher cb) (hpl : cb.length = plen.toNat + 16) (hov : cb.length < 2 ^ 32) (hc : Space m plain plen.toNat)
    (ak : Apart sp 12 key 32) (aa : Apart sp 12 aad ad.length) (ap : Apart sp 12 cipher cb.length)
    (ac : Apart sp 12 plain plen.toNat) :
    aeadDecrypt sp key nc aadLen aad plen plain cipher m =
      match Aead.dec kb (nonce nc) ad cb with
      | some pb => .ok (true, cleared sp 12 (wrote plain pb m))
      | none => .ok (false, cleared sp 12 (cleared plain plen.toNat m)) := by
  have hl : (nonce nc).length = 12 := nonce_length nc
  have hn : (plen + 16).toNat = cb.length := by
    rw [UInt32.toNat_add, hpl]; exact Nat.mod_eq_of_lt (hpl ▸ hov)
  have hs : ∀ mm, Space (wrote sp (nonce nc) mm) sp 12 := fun mm => by
    have := (holds_wrote (m := mm) (a := sp) (b := nonce nc)).space
    rwa [hl] at this
  rw [aeadDecrypt, bind_ok zeros_run, bind_ok store64_cleared,
    bind_ok (get_run (hp.wrote (by rw [hl]; exact ap)) hn), bind_ok (get_run (ha.wrote (by rw [hl]; exact aa)) hal),
    bind_ok (get_run holds_wrote hl.symm), bind_ok (get_run (hk.wrote (by rw [hl, hkl]; exact ak)) hkl.symm)]
  cases hd : Aead.dec kb (nonce nc) ad cb with
  | some pb =>
    have hpb : pb.length = plen.toNat := by have := Aead.dec_length _ _ _ _ _ hd; omega
    have h1 : (do put plain pb; pure true : P Bool) (wrote sp (nonce nc) m) =
        .ok (true, wrote sp (nonce nc) (wrote plain pb m)) := by
      rw [bind_ok (put_run (Space.wrote (by rw [hpb]; exact hc))), pure_run,
        wrote_comm (by rw [hpb, hl]; unfold Apart at *; omega)]
    dsimp only
    rw [bind_ok h1, bind_ok (fill_run (hs _)), pure_run, cleared, wrote_wrote (by simp [hl])]
    rfl
  | none =>
    have h1 : (do fill plain 0 plen.toNat; pure false : P Bool) (wrote sp (nonce nc) m) =
        .ok (false, wrote sp (nonce nc) (cleared plain plen.toNat m)) := by
      rw [bind_ok (fill_run (Space.wrote hc)), pure_run, cleared,
        wrote_comm (by rw [hl, List.length_replicate]; unfold Apart at *; omega)]
      rfl
    dsimp only
    rw [bind_ok h1, bind_ok (fill_run (hs _)), pure_run, cleared, wrote_wrote (by simp [hl])]
    rfl

end

/-! ### HMAC -/

section
variable [Hashes]

@[simp] theorem H_length (x : Bytes) : (H x).length = 64 := by simp [H]

theorem HMAC_length (k d : Bytes) : (HMAC k d).length = 64 := by rw [HMAC, H_length]

theorem blockKey_length (k : Bytes) : (blockKey k).length = 128 := by simp [blockKey]

theorem getD_range (l : Bytes) (h : l.length ≤ n) :
    (List.range n).map (fun i => l.getD i 0) = l ++ List.replicate (n - l.length) 0 := by
  apply List.ext_getElem
  · simp; omega
  · intro i h1 h2
    simp only [List.getElem_map, List.getElem_range, List.getElem_append, List.getElem_replicate]
    split
    · rename_i h3; rw [List.getD_eq_getElem _ _ h3]
    · rename_i h3; rw [List.getD_eq_default _ _ (by omega)]

theorem blockKey_short {k : Bytes} (h : k.length ≤ 128) : blockKey k = k ++ List.replicate (128 - k.length) 0 := by
  rw [blockKey, if_neg (by omega)]; exact getD_range k h

theorem blockKey_long {k : Bytes} (h : 128 < k.length) : blockKey k = H k ++ List.replicate (128 - 64) 0 := by
  have := getD_range (n := 128) (H k) (by simp)
  rw [H_length] at this
  rw [blockKey, if_pos h]; exact this

theorem opad_eq (l : Bytes) : (l.map (· ^^^ 0x36)).map (· ^^^ ((0x36 : UInt8) ^^^ 0x5c)) = l.map (· ^^^ 0x5c) := by
  rw [List.map_map]
  apply List.map_congr_left
  intro x _
  show (x ^^^ 0x36) ^^^ (0x36 ^^^ 0x5c) = x ^^^ 0x5c
  rw [UInt8.xor_assoc]; rfl

/-- The formatted key. -/
theorem keyBlock_run {key : ℕ} {keylen : UInt32} {kb : Bytes} (hk : Holds m key kb) (hkl : keylen.toNat = kb.length)
    (ak : Apart sp 128 key kb.length) :
    keyBlock sp keylen key (undef sp 128 m) = .ok ((), wrote sp (blockKey kb) m) := by
  have hk' : Holds (undef sp 128 m) key kb := hk.undef ak
  rw [keyBlock, hkl]
  split
  · rename_i hs
    have sp0 : Space (undef sp 128 m) sp kb.length := by
      have := space_undef (a := sp) (m := m) (j := 0) (k := kb.length) (n := 128) (by omega)
      simpa using this
    rw [bind_ok (memcpy_run hk' rfl sp0 (by unfold Apart at *; omega)),
      fill_run (Space.wrote (space_undef (by omega))), cleared, wrote_append, ← blockKey_short hs,
      wrote_undef (blockKey_length _)]
  · rename_i hs
    have sp0 : Space (undef sp 128 m) sp 64 := by
      have := space_undef (a := sp) (m := m) (j := 0) (k := 64) (n := 128) (by omega)
      simpa using this
    have e64 : sp + 64 = sp + (H kb).length := by simp
    rw [bind_ok (get_run hk' rfl), bind_ok (put_run (by simpa using sp0)), fill_run (Space.wrote (space_undef (by omega))),
      cleared]
    show C.ok ((), wrote (sp + 64) _ (wrote sp (H kb) _)) = _
    rw [e64, wrote_append, ← blockKey_long (by omega), wrote_undef (blockKey_length _)]

theorem hmac_run {output key data : ℕ} {keylen datalen : UInt32} {kb db : Bytes}
    (hk : Holds m key kb) (hkl : keylen.toNat = kb.length) (hd : Holds m data db) (hdl : datalen.toNat = db.length)
    (ho : Space m output 64) (ak : Apart sp 128 key kb.length) (ad : Apart sp 128 data db.length)
    (ao : Apart sp 128 output 64) :
    hmac sp output keylen key datalen data m = .ok ((), cleared sp 128 (wrote output (HMAC kb db) m)) := by
  have hb : ∀ v, ((blockKey kb).map (· ^^^ v)).length = 128 := fun v => by rw [List.length_map, blockKey_length]
  have hs : ∀ {l : Bytes} {mm : Mem}, l.length = 128 → Space (wrote sp l mm) sp 128 := fun {l mm} h => by
    have := (holds_wrote (m := mm) (a := sp) (b := l)).space
    rwa [h] at this
  rw [hmac, bind_ok locals_run, bind_ok (keyBlock_run hk hkl ak), bind_ok (xorKey_wrote (blockKey_length _).symm),
    bind_ok (get_run holds_wrote (hb _).symm), bind_ok (get_run (hd.wrote (by rw [hb]; exact ad)) hdl),
    bind_ok (put_run (Space.wrote (by simpa using ho)))]
  show ((xorKey sp 128 (0x36 ^^^ 0x5c) >>= _ : P Unit) (wrote output (H ((blockKey kb).map (· ^^^ 0x36) ++ db)) _)) = _
  rw [wrote_comm (by rw [hb, H_length]; unfold Apart at *; omega), bind_ok (xorKey_wrote (hb _).symm), opad_eq,
    bind_ok (get_run holds_wrote (hb _).symm),
    bind_ok (get_run (holds_wrote.wrote (by rw [hb, H_length]; exact ao)) (H_length _).symm),
    bind_ok (put_run (Space.wrote (Space.wrote (by simpa using ho))))]
  show fill sp 0 128 (wrote output (HMAC kb db) _) = _
  rw [wrote_comm (by rw [hb, HMAC_length]; unfold Apart at *; omega), wrote_wrote (by rw [HMAC_length, H_length]),
    fill_run (hs (hb _)), cleared, wrote_wrote (by rw [hb]; simp)]
  rfl

/-! ### HKDF -/

theorem HKDF_length {ck ikm : Bytes} {i : ℕ} (h : i ≠ 0) : (HKDF ck ikm i).length = 64 := by
  obtain ⟨j, rfl⟩ := Nat.exists_eq_succ_of_ne_zero h
  rw [HKDF, T, HMAC_length]

/-- The frame of `kdf`: the first 64 bytes of `output`, its last byte, `secret` and the frame of `hmac`. -/
def frame (sp : ℕ) (o : Bytes) (t : UInt8) (s w : Bytes) (m : Mem) : Mem := wrote sp (o ++ ([t] ++ (s ++ w))) m

structure Fits (o s w : Bytes) : Prop where
  o : o.length = 64
  s : s.length = 64
  w : w.length = 128

variable {o s w : Bytes} {t : UInt8}

theorem Fits.length (f : Fits o s w) : (o ++ ([t] ++ (s ++ w))).length = 257 := by
  simp [f.o, f.s, f.w]

theorem frame_o (f : Fits o s w) : Holds (frame sp o t s w m) sp o :=
  (holds_append.1 (holds_wrote (a := sp) (b := o ++ ([t] ++ (s ++ w))) (m := m))).1

theorem frame_ot (f : Fits o s w) : Holds (frame sp o t s w m) sp (o ++ [t]) := by
  have h := holds_wrote (a := sp) (b := o ++ ([t] ++ (s ++ w))) (m := m)
  rw [← List.append_assoc] at h
  have h' := (holds_append.1 h).1
  rwa [List.append_assoc] at h'

theorem frame_s (f : Fits o s w) : Holds (frame sp o t s w m) (sp + 65) s := by
  have h := holds_piece (m := m) (a := sp) (p := o ++ [t]) (b := s) (q := w)
  rw [List.append_assoc] at h
  simpa [frame, f.o] using h

theorem frame_w (f : Fits o s w) : Holds (frame sp o t s w m) (sp + 129) w := by
  have h := holds_piece (m := m) (a := sp) (p := o ++ ([t] ++ s)) (b := w) (q := [])
  simpa [frame, f.o, f.s, Nat.add_assoc] using h

theorem wrote_frame_o {o' : Bytes} (f : Fits o s w) (h : o'.length = 64) :
    wrote sp o' (frame sp o t s w m) = frame sp o' t s w m := by
  have := wrote_piece (m := m) (a := sp) (p := []) (b := o) (b' := o') (q := [t] ++ (s ++ w)) (by rw [h, f.o])
  simpa [frame] using this

theorem wrote_frame_t {t' : UInt8} (f : Fits o s w) :
    wrote (sp + 64) [t'] (frame sp o t s w m) = frame sp o t' s w m := by
  have := wrote_piece (m := m) (a := sp) (p := o) (b := [t]) (b' := [t']) (q := s ++ w) (by simp)
  simpa [frame, f.o] using this

theorem wrote_frame_s {s' : Bytes} (f : Fits o s w) (h : s'.length = 64) :
    wrote (sp + 65) s' (frame sp o t s w m) = frame sp o t s' w m := by
  have := wrote_piece (m := m) (a := sp) (p := o ++ [t]) (b := s) (b' := s') (q := w) (by rw [h, f.s])
  simpa [frame, f.o, Nat.add_assoc] using this

theorem wrote_frame_w {w' : Bytes} (f : Fits o s w) (h : w'.length = 128) :
    wrote (sp + 129) w' (frame sp o t s w m) = frame sp o t s w' m := by
  have := wrote_piece (m := m) (a := sp) (p := o ++ ([t] ++ s)) (b := w) (b' := w') (q := []) (by rw [h, f.w])
  simpa [frame, f.o, f.s, Nat.add_assoc] using this

theorem wrote_frame (f : Fits o s w) (h : Apart sp 257 a b.length) :
    wrote a b (frame sp o t s w m) = frame sp o t s w (wrote a b m) := by
  rw [frame, wrote_comm (by rw [f.length]; unfold Apart at *; omega)]; rfl

/-- The zeros of the frame of `hmac`. -/
abbrev z128 : Bytes := List.replicate 128 0

/-- The call of `hmac` for one block. -/
theorem block_run {dl : UInt32} {db : Bytes} (f : Fits o s w) (hd : Holds (frame sp o t s w m) sp db)
    (hl : dl.toNat = db.length) (h65 : db.length ≤ 65) :
    hmac (sp + 129) sp 64 (sp + 65) dl sp (frame sp o t s w m) = .ok ((), frame sp (HMAC s db) t s z128 m) := by
  have ho : Space (frame sp o t s w m) sp 64 := f.o ▸ (frame_o f).space
  rw [hmac_run (frame_s f) (by rw [f.s]; rfl) hd hl ho (by rw [f.s]; unfold Apart; omega) (by unfold Apart; omega)
    (by unfold Apart; omega), cleared, wrote_frame_o f (HMAC_length _ _),
    wrote_frame_w ⟨HMAC_length _ _, f.s, f.w⟩ (by simp)]

theorem deliver_run {dst : ℕ} (f : Fits o s w) (hs : Space m dst 64) (ha : Apart sp 257 dst 64) :
    memcpy dst sp 64 (frame sp o t s w m) = .ok ((), frame sp o t s w (wrote dst o m)) := by
  rw [memcpy_run (frame_o f) f.o.symm (Space.wrote hs) (by unfold Apart at *; omega), wrote_frame f (by rw [f.o]; exact ha)]

theorem wipe_run (f : Fits o s w) (hw : w = z128) :
    (do fill sp 0 65; fill (sp + 65) 0 64 : P Unit) (frame sp o t s w m) = .ok ((), cleared sp 257 m) := by
  have h1 : Space (frame sp o t s w m) sp 65 := by
    have := (frame_ot (t := t) (m := m) (sp := sp) f).space
    simpa [f.o] using this
  have h2 : Space (frame sp o t s w m) (sp + 65) 64 := f.s ▸ (frame_s f).space
  have e : (List.replicate 65 0 : Bytes) = List.replicate 64 0 ++ [0] := rfl
  have h64 : sp + 64 = sp + (List.replicate 64 (0 : UInt8)).length := by simp
  rw [bind_ok (fill_run h1), cleared, fill_run (Space.wrote h2), cleared, e, ← wrote_append, ← h64,
    wrote_frame_o f (by simp), wrote_frame_t ⟨by simp, f.s, f.w⟩, wrote_frame_s ⟨by simp, f.s, f.w⟩ (by simp), frame, hw,
    cleared]
  rfl

theorem kdf_run {hash1 key dst1 dst2 dst3 : ℕ} {keylen : UInt32} {ck ikm : Bytes}
    (hh : Holds m hash1 ck) (hhl : ck.length = 64) (hk : Holds m key ikm) (hkl : keylen.toNat = ikm.length)
    (ah : Apart sp 257 hash1 64) (ak : Apart sp 257 key ikm.length)
    (hd : ∀ d ∈ [dst1, dst2, dst3], d ≠ 0 → Space m d 64 ∧ Apart sp 257 d 64) :
    kdf sp hash1 keylen key dst1 dst2 dst3 m = .ok ((), cleared sp 257 (delivered ck ikm 1 [dst1, dst2, dst3] m)) := by
  -- the first call of hmac
  have e257 : ∀ mm : Mem, ∀ P : Bytes, P.length = 64 →
      cleared (sp + 129) 128 (wrote (sp + 65) P (cleared (sp + 65) 64 (cleared sp 65 mm))) =
        frame sp (List.replicate 64 0) 0 P z128 mm := by
    intro mm P hP
    have h65 : sp + 65 = sp + (List.replicate 65 (0 : UInt8)).length := by simp
    have h129 : sp + 129 = sp + (List.replicate 65 (0 : UInt8) ++ P).length := by simp [hP]
    rw [cleared, cleared, cleared, wrote_wrote (by simp [hP]), h65, wrote_append, h129, wrote_append, frame,
      List.append_assoc]
    rfl
  have hfirst : hmac (sp + 129) (sp + 65) 64 hash1 keylen key (cleared (sp + 65) 64 (cleared sp 65 m)) =
      .ok ((), frame sp (List.replicate 64 0) 0 (PRK ck ikm) z128 m) := by
    have hs : Space (cleared (sp + 65) 64 (cleared sp 65 m)) (sp + 65) 64 := by
      have := (holds_wrote (m := cleared sp 65 m) (a := sp + 65) (b := List.replicate 64 0)).space
      simpa [cleared] using this
    rw [hmac_run (kb := ck) (db := ikm) ?_ (by rw [hhl]; rfl) ?_ hkl hs ?_ ?_ ?_, e257 _ _ (HMAC_length _ _)]
    · rfl
    · exact (hh.wrote (by rw [hhl, List.length_replicate]; unfold Apart at *; omega)).wrote
        (by rw [hhl, List.length_replicate]; unfold Apart at *; omega)
    · exact (hk.wrote (by rw [List.length_replicate]; unfold Apart at *; omega)).wrote
        (by rw [List.length_replicate]; unfold Apart at *; omega)
    · rw [hhl]; unfold Apart at *; omega
    · unfold Apart at *; omega
    · unfold Apart at *; omega
  have hP : (PRK ck ikm).length = 64 := HMAC_length _ _
  have f0 : Fits (List.replicate 64 0) (PRK ck ikm) z128 := ⟨by simp, hP, by simp⟩
  have fb : ∀ db, Fits (HMAC (PRK ck ikm) db) (PRK ck ikm) z128 := fun db => ⟨HMAC_length _ _, hP, by simp⟩
  have hwipe : ∀ {o : Bytes} {t : UInt8} {mm : Mem}, o.length = 64 → (do fill sp 0 65; fill (sp + 65) 0 64 : P Unit)
      (frame sp o t (PRK ck ikm) z128 mm) = .ok ((), cleared sp 257 mm) := fun ho => wipe_run ⟨ho, hP, by simp⟩ rfl
  have hT1 : HMAC (PRK ck ikm) [1] = HKDF ck ikm 1 := rfl
  have hT2 : HMAC (PRK ck ikm) (HKDF ck ikm 1 ++ [2]) = HKDF ck ikm 2 := rfl
  have hT3 : HMAC (PRK ck ikm) (HKDF ck ikm 2 ++ [3]) = HKDF ck ikm 3 := rfl
  have hl : ∀ i, i ≠ 0 → (HKDF ck ikm i).length = 64 := fun i hi => HKDF_length hi
  -- a block with the previous one in `output`
  have hnext : ∀ {mm : Mem} {t t' : UInt8} {prev : Bytes}, prev.length = 64 →
      (store1 (sp + 64) t') (frame sp prev t (PRK ck ikm) z128 mm) = .ok ((), frame sp prev t' (PRK ck ikm) z128 mm) ∧
      hmac (sp + 129) sp 64 (sp + 65) 65 sp (frame sp prev t' (PRK ck ikm) z128 mm) =
        .ok ((), frame sp (HMAC (PRK ck ikm) (prev ++ [t'])) t' (PRK ck ikm) z128 mm) := by
    intro mm t t' prev hp
    have f : Fits prev (PRK ck ikm) z128 := ⟨hp, hP, by simp⟩
    refine ⟨?_, block_run f (frame_ot f) (by simp [hp]) (by simp [hp])⟩
    rw [store1_run, wrote_frame_t f]
    have := (frame_ot (t := t) (m := mm) (sp := sp) f).space 64 (by simp [hp])
    exact this
  have hdel : ∀ {mm : Mem} {t : UInt8} {o : Bytes} {dst : ℕ}, o.length = 64 → Space mm dst 64 → Apart sp 257 dst 64 →
      memcpy dst sp 64 (frame sp o t (PRK ck ikm) z128 mm) = .ok ((), frame sp o t (PRK ck ikm) z128 (wrote dst o mm)) :=
    fun ho hs ha => deliver_run ⟨ho, hP, by simp⟩ hs ha
  rw [kdf, bind_ok zeros_run, bind_ok zeros_run, bind_ok hfirst]
  by_cases h1 : dst1 = 0
  · rw [kdf1, if_neg (by simpa using h1), bind_ok (pure_run ()), hwipe (by simp), delivered, if_pos h1]
  · rw [kdf1, if_pos h1]
    obtain ⟨s1, a1⟩ := hd dst1 (by simp) h1
    -- the first block
    have e1 : store1 sp 1 (frame sp (List.replicate 64 0) 0 (PRK ck ikm) z128 m) =
        .ok ((), frame sp (1 :: List.replicate 63 0) 0 (PRK ck ikm) z128 m) := by
      have h0 : frame sp (List.replicate 64 0) 0 (PRK ck ikm) z128 m sp ≠ .none := (frame_o f0).space 0 (by simp)
      rw [store1_run h0]
      congr 2
      have := wrote_piece (m := m) (a := sp) (p := []) (b := [0]) (b' := [1])
        (q := List.replicate 63 0 ++ ([0] ++ (PRK ck ikm ++ z128))) rfl
      simpa [frame, List.replicate_succ] using this
    have f1 : Fits (1 :: List.replicate 63 0) (PRK ck ikm) z128 := ⟨by simp, hP, by simp⟩
    have b1 := block_run (sp := sp) (m := m) (t := 0) (dl := 1) (db := [1]) f1
      ((holds_append (b := [1]) (d := List.replicate 63 0)).1 (frame_o f1)).1 rfl (by simp)
    rw [hT1] at b1
    rw [delivered, if_neg h1]
    by_cases h2 : dst2 = 0
    · rw [bind_ok (m1 := frame sp (HKDF ck ikm 1) 0 (PRK ck ikm) z128 (wrote dst1 (HKDF ck ikm 1) m)) (v := ()) ?_,
        hwipe (hl 1 (by simp)), delivered, if_pos h2]
      rw [bind_ok e1, bind_ok b1, bind_ok (hdel (hl 1 (by simp)) s1 a1), kdf2, if_neg (by simpa using h2), pure_run]
    · obtain ⟨s2, a2⟩ := hd dst2 (by simp) h2
      have n2 := hnext (mm := wrote dst1 (HKDF ck ikm 1) m) (t := 0) (t' := 2) (hl 1 (by simp))
      rw [hT2] at n2
      rw [delivered, if_neg h2]
      by_cases h3 : dst3 = 0
      · rw [bind_ok (m1 := frame sp (HKDF ck ikm 2) 2 (PRK ck ikm) z128
          (wrote dst2 (HKDF ck ikm 2) (wrote dst1 (HKDF ck ikm 1) m))) (v := ()) ?_,
          hwipe (hl 2 (by simp)), delivered, if_pos h3]
        rw [bind_ok e1, bind_ok b1, bind_ok (hdel (hl 1 (by simp)) s1 a1), kdf2, if_pos h2, bind_ok n2.1, bind_ok n2.2,
          bind_ok (hdel (hl 2 (by simp)) (Space.wrote s2) a2), kdf3, if_neg (by simpa using h3), pure_run]
      · obtain ⟨s3, a3⟩ := hd dst3 (by simp) h3
        have n3 := hnext (mm := wrote dst2 (HKDF ck ikm 2) (wrote dst1 (HKDF ck ikm 1) m)) (t := 2) (t' := 3)
          (hl 2 (by simp))
        rw [hT3] at n3
        rw [bind_ok (m1 := frame sp (HKDF ck ikm 3) 3 (PRK ck ikm) z128
          (wrote dst3 (HKDF ck ikm 3) (wrote dst2 (HKDF ck ikm 2) (wrote dst1 (HKDF ck ikm 1) m)))) (v := ()) ?_,
          hwipe (hl 3 (by simp)), delivered, if_neg h3, delivered]
        rw [bind_ok e1, bind_ok b1, bind_ok (hdel (hl 1 (by simp)) s1 a1), kdf2, if_pos h2, bind_ok n2.1, bind_ok n2.2,
          bind_ok (hdel (hl 2 (by simp)) (Space.wrote s2) a2), kdf3, if_pos h3, bind_ok n3.1, bind_ok n3.2,
          hdel (hl 3 (by simp)) (Space.wrote (Space.wrote s3)) a3]

end

end Verif.Prim
