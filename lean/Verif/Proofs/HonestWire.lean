import Verif.Spec.Honest
import Verif.Proofs.Tp
import Verif.Proofs.TpNext
import Verif.Proofs.Peer

/-!
# Messages of parties that follow the protocol
-/

set_option linter.unusedSectionVars false

namespace Verif.TpDkg.Honest

open H Wire Spec.Wire

/-- `ts` may follow `last`, which is 0 or a time of the window. -/
structure Fresh (lo : ℕ) (last ts : UInt64) : Prop where
  lo_le : last = 0 ∨ lo ≤ last.toNat
  le : last ≤ ts

theorem Fresh.mono {lo : ℕ} {a b c : UInt64} (h : Fresh lo a b) (h' : b ≤ c) : Fresh lo a c :=
  ⟨h.lo_le, UInt64.le_trans h.le h'⟩

theorem Fresh.refl {lo : ℕ} {a : UInt64} (h : lo ≤ a.toNat) : Fresh lo a a := ⟨.inr h, UInt64.le_refl a⟩

/-- A time of the window. -/
def InWin (lo : ℕ) (eps ts : UInt64) : Prop := lo ≤ ts.toNat ∧ ts.toNat ≤ lo + eps.toNat

theorem checkTs_ok {lo : ℕ} {now eps last ts : UInt64} (h1 : eps.toNat ≤ lo) (h2 : lo + 2 * eps.toNat < 2 ^ 64)
    (hn : InWin lo eps now) (ht : InWin lo eps ts) (hf : Fresh lo last ts) :
    ∃ k, k ≤ 1 ∧ checkTs now eps last ts = (0, ts, k) := by
  have e1 : (now - eps).toNat = now.toNat - eps.toNat := by
    apply UInt64.toNat_sub_of_le
    rw [UInt64.le_iff_toNat_le]
    exact h1.trans hn.1
  have e2 : (now + eps).toNat = now.toNat + eps.toNat := by
    rw [UInt64.toNat_add]
    apply Nat.mod_eq_of_lt
    have := hn.2; omega
  have := hn.1
  have := hn.2
  have := ht.1
  have := ht.2
  unfold checkTs
  split
  · rw [if_neg (by rw [UInt64.lt_iff_toNat_lt, e1]; omega),
      if_neg (by show ¬ (now + eps < ts); rw [UInt64.lt_iff_toNat_lt, e2]; omega)]
    exact ⟨1, le_refl 1, rfl⟩
  · rename_i hl
    have hlo := hf.lo_le.resolve_left hl
    have hle := UInt64.le_iff_toNat_le.1 hf.le
    have e3 : (last + eps).toNat = last.toNat + eps.toNat := by
      rw [UInt64.toNat_add]
      apply Nat.mod_eq_of_lt
      omega
    rw [if_neg (by show ¬ (ts < last); rw [UInt64.lt_iff_toNat_lt]; omega),
      if_neg (by show ¬ (last + eps < ts); rw [UInt64.lt_iff_toNat_lt, e3]; omega)]
    exact ⟨0, by omega, rfl⟩

variable [Signing]

/-- The signed message with the given fields. -/
def smsg (seed sid : B32) (msgno frm rcp : UInt8) (ts : UInt64) (body : Bytes) : Bytes :=
  encode (Signing.sign (Signing.skOf seed) (Header.mk msgno (UInt32.ofNat (111 + body.length)) frm rcp ts sid).encode)
    ⟨msgno, UInt32.ofNat (111 + body.length), frm, rcp, ts, sid⟩ body

section
variable {seed sid : B32} {msgno frm rcp : UInt8} {ts : UInt64} {body : Bytes}

theorem smsg_length : (smsg seed sid msgno frm rcp ts body).length = 111 + body.length := encode_length _ _ _

theorem smsg_body : (smsg seed sid msgno frm rcp ts body).drop 111 = body := encode_body _ _ _

/-- A header written before `body`. -/
theorem smsg_eq {sk : B64} {len : ℕ} (hs : sk = Signing.skOf seed) (hl : len = 111 + body.length) :
    encode (Signing.sign sk (Header.mk msgno (UInt32.ofNat len) frm rcp ts sid).encode)
      ⟨msgno, UInt32.ofNat len, frm, rcp, ts, sid⟩ [] ++ body = smsg seed sid msgno frm rcp ts body := by
  subst hs hl
  unfold smsg encode
  rw [List.append_nil]

theorem recvMsg_ok {lo : ℕ} {now eps last : UInt64} {buf : Bytes} {off len : ℕ} {pk : B32}
    (h1 : eps.toNat ≤ lo) (h2 : lo + 2 * eps.toNat < 2 ^ 64) (hn : InWin lo eps now) (ht : InWin lo eps ts)
    (hf : Fresh lo last ts) (hl : len = 111 + body.length) (hl2 : len < 2 ^ 32) (hb : off + len ≤ buf.length)
    (hm : slice buf off len = smsg seed sid msgno frm rcp ts body) (hpk : pk = Signing.pkOf seed) :
    ∃ k, k ≤ 1 ∧ recvMsg now buf off len msgno frm rcp pk sid eps last = .ok (0, ts, k) := by
  subst hpk
  obtain ⟨k, hk, hc⟩ := checkTs_ok h1 h2 hn ht hf
  refine ⟨k, hk, ?_⟩
  rw [recvMsg_encode hb (by omega) hm]
  unfold recvPure
  rw [hc]
  have : (UInt32.ofNat (111 + body.length)).toNat = len := by rw [← hl, UInt32.toNat_ofNat_of_lt' (by simpa using hl2)]
  simp only [this, ne_eq, not_true_eq_false, if_false, Signing.verify_sign, if_true]

/-- Part of the body of a message in a buffer. -/
theorem slice_smsg {buf : Bytes} {off len a k : ℕ} (hm : slice buf off len = smsg seed sid msgno frm rcp ts body)
    (hl : 111 + a + k ≤ len) : slice buf (off + (111 + a)) k = slice body a k := by
  have e : slice (slice buf off len) (111 + a) k = slice buf (off + (111 + a)) k := by
    unfold slice
    rw [List.drop_take, List.take_take, List.drop_drop, Nat.min_eq_left (by omega)]
  rw [← e, hm]
  unfold slice
  rw [← List.drop_drop, smsg_body]

end

/-! ## Concatenations of messages -/

/-- `g 0 ++ … ++ g (n-1)` -/
def cat (n : ℕ) (g : ℕ → Bytes) : Bytes := ((List.range n).map g).flatten

theorem cat_zero (g : ℕ → Bytes) : cat 0 g = [] := rfl

theorem cat_succ (n : ℕ) (g : ℕ → Bytes) : cat (n + 1) g = cat n g ++ g n := by
  unfold cat
  rw [List.range_succ, List.map_append, List.flatten_append, List.map_singleton, List.flatten_singleton]

theorem cat_length {n sz : ℕ} {g : ℕ → Bytes} (h : ∀ k < n, (g k).length = sz) : (cat n g).length = n * sz := by
  induction n with
  | zero => simp [cat]
  | succ n ih => rw [cat_succ, List.length_append, ih (fun k hk => h k (by omega)), h n (by omega), Nat.add_mul]; omega

theorem cat_congr {n : ℕ} {g g' : ℕ → Bytes} (h : ∀ k < n, g k = g' k) : cat n g = cat n g' := by
  unfold cat
  congr 1
  apply List.map_congr_left
  intro k hk
  exact h k (List.mem_range.1 hk)

theorem slice_cat {n sz k : ℕ} {g : ℕ → Bytes} (h : ∀ k < n, (g k).length = sz) (hk : k < n) :
    slice (cat n g) (k * sz) sz = g k := slice_flatten h hk

/-- The message `(j, i)` in the concatenation of the answers of all peers. -/
theorem slice_cat2 {n sz i j : ℕ} {g : ℕ → ℕ → Bytes} (h : ∀ j < n, ∀ i < n, (g j i).length = sz) (hj : j < n)
    (hi : i < n) : slice (cat n fun j => cat n (g j)) ((j * n + i) * sz) sz = g j i := by
  have h1 : slice (cat n fun j => cat n (g j)) (j * (n * sz)) (n * sz) = cat n (g j) :=
    slice_cat (fun k hk => cat_length (h k hk)) hj
  have h2 := slice_cat (h j hj) hi
  rw [← h1] at h2
  rw [← h2]
  unfold slice
  have h3 : (i + 1) * sz ≤ n * sz := Nat.mul_le_mul_right _ hi
  rw [Nat.add_mul, Nat.one_mul] at h3
  rw [List.drop_take, List.take_take, List.drop_drop, Nat.min_eq_left (by omega)]
  congr 2
  ring

theorem slice_append_right {a b : Bytes} {off len : ℕ} : slice (a ++ b) (a.length + off) len = slice b off len := by
  unfold slice
  rw [List.drop_append, List.drop_of_length_le (by omega), List.nil_append]
  congr 2
  omega

end Verif.TpDkg.Honest
