import Verif.Model.AuthKeys
import Verif.Spec.AuthKeys
import Verif.Proofs.Device

/-!
# Lemmas on the file of authorised keys
-/

set_option linter.unusedSectionVars false

namespace Verif.Noise.Auth

open Noise.Mem
open Spec.Device Spec.AuthKeys

/-! ### The alphabet -/

theorem charToByte_digit {v : ℕ} (h : v < 64) : charToByte (alphabet.getD v 0) = some v := by
  have : ∀ v : Fin 64, charToByte (alphabet.getD v.1 0) = some v.1 := by decide +kernel
  exact this ⟨v, h⟩

theorem charToByte_some {c : UInt8} {d : ℕ} (h : charToByte c = some d) : d < 64 ∧ alphabet.getD d 0 = c ∧ c ≠ 32 ∧ c ≠ 10 := by
  have : ∀ n : Fin 256, ∀ d, charToByte (UInt8.ofNat n.1) = some d →
      d < 64 ∧ alphabet.getD d 0 = UInt8.ofNat n.1 ∧ UInt8.ofNat n.1 ≠ 32 ∧ UInt8.ofNat n.1 ≠ 10 := by
    have key : ∀ n : Fin 256, (charToByte (UInt8.ofNat n.1)).all (fun d =>
        decide (d < 64 ∧ alphabet.getD d 0 = UInt8.ofNat n.1 ∧ UInt8.ofNat n.1 ≠ 32 ∧ UInt8.ofNat n.1 ≠ 10)) = true := by
      decide +kernel
    intro n d hd
    have := key n
    rw [hd] at this
    exact of_decide_eq_true this
  have hc : UInt8.ofNat (⟨c.toNat, c.toNat_lt⟩ : Fin 256).1 = c := by simp
  have := this ⟨c.toNat, c.toNat_lt⟩ d
  rw [hc] at this
  exact this h

/-- A character of the alphabet. -/
def InAlphabet (c : UInt8) : Prop := ∃ d, charToByte c = some d

instance (c : UInt8) : Decidable (InAlphabet c) :=
  decidable_of_iff ((charToByte c).isSome = true) Option.isSome_iff_exists

theorem mem_alphabet {c : UInt8} : c ∈ alphabet ↔ InAlphabet c := by
  constructor
  · have : ∀ c ∈ alphabet, InAlphabet c := by decide +kernel
    exact this c
  · rintro ⟨d, hd⟩
    obtain ⟨h1, h2, -⟩ := charToByte_some hd
    rw [← h2, List.getD_eq_getElem?_getD, List.getElem?_eq_getElem (show d < alphabet.length from h1), Option.getD_some]
    exact List.getElem_mem _

/-! ### Numbers in base 64 -/

/-- Value of a string of characters. -/
def val (s : Bytes) : ℕ := s.foldl (fun a c => a * 64 + (charToByte c).getD 0) 0

theorem val_snoc (s : Bytes) (c : UInt8) : val (s ++ [c]) = val s * 64 + (charToByte c).getD 0 := by
  simp [val]

/-- The `m` last digits of a number. -/
def enc (m D : ℕ) : Bytes := (List.range m).map fun i => alphabet.getD (D / 64 ^ (m - 1 - i) % 64) 0

theorem enc_length (m D : ℕ) : (enc m D).length = m := by simp [enc]

theorem enc_succ (m D : ℕ) : enc (m + 1) D = enc m (D / 64) ++ [alphabet.getD (D % 64) 0] := by
  rw [enc, List.range_succ, List.map_append, enc]
  congr 1
  · apply List.map_congr_left
    intro i hi
    rw [List.mem_range] at hi
    have : m + 1 - 1 - i = (m - 1 - i) + 1 := by omega
    rw [this, pow_succ', ← Nat.div_div_eq_div_mul]
  · simp

theorem enc_mem {m D : ℕ} {c : UInt8} (h : c ∈ enc m D) : InAlphabet c := by
  rw [enc, List.mem_map] at h
  obtain ⟨i, -, rfl⟩ := h
  exact ⟨_, charToByte_digit (Nat.mod_lt _ (by decide))⟩

theorem val_enc (m : ℕ) : ∀ D, val (enc m D) = D % 64 ^ m := by
  induction m with
  | zero => intro D; simp [enc, val, Nat.mod_one]
  | succ m ih =>
    intro D
    rw [enc_succ, val_snoc, ih, charToByte_digit (Nat.mod_lt _ (by decide)), pow_succ', Nat.mod_mul]
    simp only [Option.getD_some]
    ring

theorem enc_val (s : Bytes) (hs : ∀ c ∈ s, InAlphabet c) : enc s.length (val s) = s := by
  induction s using List.reverseRecOn with
  | nil => rfl
  | append_singleton s c ih =>
    obtain ⟨d, hd⟩ := hs c (by simp)
    obtain ⟨hd1, hd2, -⟩ := charToByte_some hd
    rw [List.length_append, List.length_singleton, enc_succ, val_snoc, hd, Option.getD_some]
    have h1 : (val s * 64 + d) / 64 = val s := by omega
    have h2 : (val s * 64 + d) % 64 = d := by omega
    rw [h1, h2, hd2, ih fun c hc => hs c (by simp [hc])]

theorem chars_eq (key : B32) : chars key = enc 43 (beNat key.toList * 4) := rfl

theorem chars_length (key : B32) : (chars key).length = 43 := by simp [chars]

theorem chars_mem {key : B32} {c : UInt8} (h : c ∈ chars key) : InAlphabet c := enc_mem (chars_eq key ▸ h)

theorem beNat_lt (key : B32) : beNat key.toList < 2 ^ 256 := by
  have h := leNat_lt key.toList.reverse
  rw [List.length_reverse, Vector.length_toList] at h
  calc beNat key.toList < 256 ^ 32 := h
    _ = 2 ^ 256 := by norm_num

theorem val_chars (key : B32) : val (chars key) = beNat key.toList * 4 := by
  rw [chars_eq, val_enc, Nat.mod_eq_of_lt]
  have := beNat_lt key
  norm_num at this ⊢
  omega

theorem beNat_snoc (b : Bytes) (c : UInt8) : beNat (b ++ [c]) = beNat b * 256 + c.toNat := by
  rw [beNat, List.reverse_append]
  simp only [List.reverse_cons, List.reverse_nil, List.nil_append, List.singleton_append, leNat, beNat]
  ring

theorem beNat_inj {a b : Bytes} (hl : a.length = b.length) (h : beNat a = beNat b) : a = b := by
  have := leNat_inj (a := a.reverse) (b := b.reverse) (by simpa using hl) h
  simpa using this

/-! ### The decoder -/

theorem byte_eq (x a : ℕ) (ha : a ≤ 24) : (UInt8.ofNat (x % 2 ^ 32 / 2 ^ a)).toNat = x / 2 ^ a % 256 := by
  rw [UInt8.toNat_ofNat']
  show x % 2 ^ 32 / 2 ^ a % 256 = x / 2 ^ a % 256
  rw [show (2 : ℕ) ^ 32 = 2 ^ a * 2 ^ (32 - a) by rw [← pow_add]; congr 1; omega, Nat.mod_mul_right_div_self,
    Nat.mod_mod_of_dvd]
  rw [show (256 : ℕ) = 2 ^ 8 by norm_num]
  exact pow_dvd_pow 2 (by omega)

/-- The loop over characters of the alphabet: `D` is the number read so far. -/
theorem b64Loop_chars {maxLen : ℕ} (rest : Bytes) : ∀ (s : Bytes), (∀ c ∈ s, InAlphabet c) → ∀ (D accLen : ℕ) (bin : Bytes),
    accLen < 8 → beNat bin = D / 2 ^ accLen → 8 * bin.length + accLen + 6 * s.length < 8 * (maxLen + 1) →
    ∃ accLen' bin', b64Loop maxLen (s ++ rest) (D % 2 ^ 32) accLen bin =
        b64Loop maxLen rest (s.foldl (fun a c => a * 64 + (charToByte c).getD 0) D % 2 ^ 32) accLen' bin' ∧
      accLen' < 8 ∧ beNat bin' = s.foldl (fun a c => a * 64 + (charToByte c).getD 0) D / 2 ^ accLen' ∧
      8 * bin'.length + accLen' = 8 * bin.length + accLen + 6 * s.length
  | [], _, D, accLen, bin, ha, hb, _ => ⟨accLen, bin, rfl, ha, hb, by simp⟩
  | c :: s, hs, D, accLen, bin, ha, hb, hl => by
    obtain ⟨d, hd⟩ := hs c (by simp)
    have hd64 := (charToByte_some hd).1
    have hs' : ∀ c ∈ s, InAlphabet c := fun c hc => hs c (by simp [hc])
    rw [List.length_cons] at hl
    have hmod : (D % 2 ^ 32 * 64 + d) % 2 ^ 32 = (D * 64 + d) % 2 ^ 32 := by norm_num; omega
    rw [List.cons_append, b64Loop, hd]
    simp only [hmod, List.foldl_cons, hd, Option.getD_some]
    by_cases h8 : accLen + 6 ≥ 8
    · rw [if_pos h8, if_neg (by omega)]
      obtain ⟨k, rfl⟩ : ∃ k, accLen = k + 2 := ⟨accLen - 2, by omega⟩
      have hk : k + 2 + 6 - 8 = k := by omega
      rw [hk]
      have hnew : beNat (bin ++ [UInt8.ofNat ((D * 64 + d) % 2 ^ 32 / 2 ^ k)]) = (D * 64 + d) / 2 ^ k := by
        rw [beNat_snoc, byte_eq _ _ (by omega), hb]
        have h1 : D / 2 ^ (k + 2) = (D * 64 + d) / 2 ^ k / 256 := by
          rw [Nat.div_div_eq_div_mul, show 2 ^ k * 256 = 64 * 2 ^ (k + 2) by ring, ← Nat.div_div_eq_div_mul]
          congr 1
          omega
        rw [h1]
        omega
      obtain ⟨a', b', e, h1, h2, h3⟩ := b64Loop_chars (maxLen := maxLen) rest s hs' (D * 64 + d) k
        (bin ++ [UInt8.ofNat ((D * 64 + d) % 2 ^ 32 / 2 ^ k)]) (by omega) hnew
        (by rw [List.length_append, List.length_singleton]; omega)
      refine ⟨a', b', e, h1, h2, ?_⟩
      rw [h3, List.length_append, List.length_singleton, List.length_cons]
      omega
    · rw [if_neg h8]
      have hnew : beNat bin = (D * 64 + d) / 2 ^ (accLen + 6) := by
        rw [hb, pow_add, mul_comm (2 ^ accLen), ← Nat.div_div_eq_div_mul]
        congr 1
        norm_num
        omega
      obtain ⟨a', b', e, h1, h2, h3⟩ := b64Loop_chars (maxLen := maxLen) rest s hs' (D * 64 + d) (accLen + 6) bin (by omega)
        hnew (by omega)
      refine ⟨a', b', e, h1, h2, ?_⟩
      rw [h3, List.length_cons]
      omega

theorem b64Loop_stop {maxLen : ℕ} {rest : Bytes} (hr : ∀ c ∈ rest.head?, ¬ InAlphabet c) (acc accLen : ℕ) (bin : Bytes) :
    b64Loop maxLen rest acc accLen bin = some (acc, accLen, bin) := by
  cases rest with
  | nil => rfl
  | cons c rest =>
    have : charToByte c = none := by
      cases h : charToByte c with
      | none => rfl
      | some d => exact absurd ⟨d, h⟩ (hr c rfl)
    rw [b64Loop, this]

/-- Characters of the alphabet, then another character or the end. -/
theorem base642bin_chars {maxLen : ℕ} {s rest : Bytes} (hs : ∀ c ∈ s, InAlphabet c)
    (hr : ∀ c ∈ rest.head?, ¬ InAlphabet c) (hl : 6 * s.length < 8 * (maxLen + 1)) :
    ∃ a bin, base642bin maxLen (s ++ rest) = (if a > 4 ∨ val s % 2 ^ 32 % 2 ^ a ≠ 0 then none else some bin) ∧ a < 8 ∧
      beNat bin = val s / 2 ^ a ∧ 8 * bin.length + a = 6 * s.length := by
  obtain ⟨a, bin, e, h1, h2, h3⟩ := b64Loop_chars (maxLen := maxLen) rest s hs 0 0 [] (by decide) (by decide) (by simpa using hl)
  refine ⟨a, bin, ?_, h1, h2, by simpa using h3⟩
  rw [base642bin]
  have e' : b64Loop maxLen (s ++ rest) 0 0 [] = some (val s % 2 ^ 32, a, bin) := by
    have := e.trans (b64Loop_stop hr _ a bin)
    exact this
  rw [e']

theorem base642bin_line (key : B32) {c : UInt8} (hc : ¬ InAlphabet c) :
    base642bin 32 (chars key ++ [c]) = some key.toList := by
  obtain ⟨a, bin, e, h1, h2, h3⟩ := base642bin_chars (maxLen := 32) (s := chars key) (rest := [c]) (fun c hc => chars_mem hc)
    (by simpa using hc) (by rw [chars_length]; decide)
  rw [chars_length] at h3
  have ha : a = 2 := by omega
  subst ha
  rw [val_chars] at h2 e
  rw [e, if_neg]
  · congr 1
    apply beNat_inj
    · rw [Vector.length_toList]; omega
    · rw [h2]; norm_num
  · rw [not_or]
    refine ⟨by decide, ?_⟩
    norm_num

theorem split_alphabet : ∀ s : Bytes, ∃ p q, s = p ++ q ∧ (∀ c ∈ p, InAlphabet c) ∧ ∀ c ∈ q.head?, ¬ InAlphabet c
  | [] => ⟨[], [], rfl, by simp, by simp⟩
  | c :: s => by
    by_cases hc : InAlphabet c
    · obtain ⟨p, q, e, h1, h2⟩ := split_alphabet s
      exact ⟨c :: p, q, by rw [e, List.cons_append], by simpa using ⟨hc, h1⟩, h2⟩
    · exact ⟨[], c :: s, rfl, by simp, by simpa using hc⟩

/-- 44 characters of the alphabet do not fit. -/
theorem base642bin_long {p : Bytes} (hp : ∀ c ∈ p, InAlphabet c) (hl : p.length = 44) : base642bin 32 p = none := by
  obtain ⟨s, c, rfl⟩ : ∃ s c, p = s ++ [c] :=
    ⟨p.dropLast, p.getLast (by intro h0; rw [h0] at hl; simp at hl), (List.dropLast_append_getLast _).symm⟩
  rw [List.length_append, List.length_singleton] at hl
  obtain ⟨a, b, e, h1, -, h3⟩ := b64Loop_chars (maxLen := 32) [c] s (fun c hc => hp c (by simp [hc])) 0 0 [] (by decide)
    (by decide) (by simp at hl ⊢; omega)
  simp only [List.length_nil] at h3
  obtain ⟨d, hd⟩ := hp c (by simp)
  rw [Nat.zero_mod] at e
  have h32 : b64Loop 32 (s ++ [c]) 0 0 [] = none := by
    rw [e, b64Loop, hd]
    simp only []
    rw [if_pos (by omega), if_pos (by omega)]
  rw [base642bin, h32]

/-- What the decoder accepts as a whole key. -/
theorem base642bin_whole {s bin : Bytes} (hl : s.length = 44) (h : base642bin 32 s = some bin) (hb : bin.length = 32) :
    ∃ key : B32, key.toList = bin ∧ s.take 43 = chars key := by
  obtain ⟨p, q, rfl, hp, hq⟩ := split_alphabet s
  rw [List.length_append] at hl
  rcases Nat.lt_or_ge p.length 44 with hlt | hge
  · obtain ⟨a, b, e, h1, h2, h3⟩ := base642bin_chars (maxLen := 32) hp hq (by omega)
    rw [e] at h
    split at h
    · exact absurd h (by simp)
    · rename_i hn
      rw [not_or, not_not] at hn
      obtain rfl := Option.some.inj h
      have hp43 : p.length = 43 := by omega
      have ha : a = 2 := by omega
      subst ha
      refine ⟨⟨b.toArray, by simpa using hb⟩, by simp [Vector.toList], ?_⟩
      rw [List.take_append_of_le_length (by omega), List.take_of_length_le (by omega), chars_eq]
      have hv : beNat (Vector.toList (⟨b.toArray, by simpa using hb⟩ : B32)) * 4 = val p := by
        have h0 := hn.2
        simp only [Vector.toList, h2]
        norm_num at h0 ⊢
        omega
      rw [hv, ← hp43, enc_val p hp]
  · exfalso
    have hq0 : q = [] := List.eq_nil_of_length_eq_zero (by omega)
    subst hq0
    rw [List.append_nil, base642bin_long hp (by omega)] at h
    exact absurd h (by simp)

/-! ### Lines -/

theorem lines_line (rest : Bytes) : ∀ l : Bytes, 10 ∉ l → lines (l ++ 10 :: rest) = (l ++ [10]) :: lines rest
  | [], _ => by simp [lines]
  | c :: l, h => by
    rw [List.mem_cons, not_or] at h
    rw [List.cons_append, lines, if_neg (Ne.symm h.1), lines_line rest l h.2]
    rfl

theorem lines_last : ∀ l : Bytes, 10 ∉ l → l ≠ [] → lines l = [l]
  | [], _, h => absurd rfl h
  | [c], h, _ => by
    rw [List.mem_singleton] at h
    rw [lines, if_neg (Ne.symm h)]
    rfl
  | c :: c' :: l, h, _ => by
    rw [List.mem_cons, not_or] at h
    rw [lines, if_neg (Ne.symm h.1), lines_last (c' :: l) h.2 (by simp)]

theorem lines_ne : ∀ (s : Bytes), ∀ l ∈ lines s, l ≠ []
  | [], l, h => by simp [lines] at h
  | c :: s, l, h => by
    rw [lines] at h
    split at h
    · rcases List.mem_cons.mp h with rfl | h
      · simp
      · exact lines_ne s l h
    · cases hs : lines s with
      | nil => rw [hs] at h; simp at h; rw [h]; simp
      | cons x xs =>
        rw [hs] at h
        rcases List.mem_cons.mp h with rfl | h
        · simp
        · exact lines_ne s l (hs ▸ List.mem_cons_of_mem _ h)

theorem not_mem_chars {key : B32} {c : UInt8} (h : charToByte c = none) : c ∉ chars key := by
  intro hc
  obtain ⟨d, hd⟩ := chars_mem hc
  rw [h] at hd
  exact absurd hd (by simp)

theorem lines_file (es : List Spec.AuthKeys.Entry) (hp : ∀ e ∈ es, Plain e.2) (rest : Bytes) :
    lines (file es ++ rest) = es.map line ++ lines rest := by
  induction es with
  | nil => rfl
  | cons e es ih =>
    have h10 : 10 ∉ chars e.1 ++ [61, 32] ++ e.2 := by
      simp only [List.mem_append, not_or]
      exact ⟨⟨not_mem_chars (by decide), by decide⟩, (hp e (by simp)).1⟩
    have : file (e :: es) ++ rest = (chars e.1 ++ [61, 32] ++ e.2) ++ 10 :: (file es ++ rest) := by
      simp [file, line]
    rw [this, lines_line _ _ h10, ih fun e he => hp e (by simp [he])]
    rfl

theorem keyEnd_blank {s : Bytes} (h : 32 ∉ s) (rest : Bytes) : keyEnd (s ++ 32 :: rest) = s.length := by
  rw [keyEnd, List.takeWhile_append_of_pos]
  · simp
  · intro c hc
    have : c ≠ 32 := fun h' => h (h' ▸ hc)
    simpa using this

theorem fill_eq (grow : ℕ → ℕ) (buf : Buf) (l : Bytes) : ∃ X, fill grow buf l = l.map some ++ some 0 :: X := by
  rw [fill]
  split
  · exact ⟨buf.drop (l.map some ++ [some 0]).length, by simp⟩
  · exact ⟨List.replicate (grow (l.map some ++ [some 0]).length) none, by simp⟩

theorem cstring_some (name : Bytes) (X : Buf) :
    cstring (name.map some ++ some 0 :: X) = .ok (name.takeWhile (· ≠ 0)) := by
  induction name with
  | nil => simp [cstring]
  | cons c name ih =>
    rw [List.map_cons, List.cons_append, cstring]
    by_cases hc : c = 0
    · rw [if_pos hc, List.takeWhile_cons_of_neg (by simp [hc])]
    · rw [if_neg hc, ih, List.takeWhile_cons_of_pos (by simp [hc])]
      rfl

theorem takeWhile_plain {name : Bytes} (h : 0 ∉ name) : name.takeWhile (· ≠ 0) = name := by
  rw [List.takeWhile_eq_self_iff]
  intro c hc
  have : c ≠ 0 := fun h' => h (h' ▸ hc)
  simpa using this

theorem cstring_name {name : Bytes} (h : 0 ∉ name) (X : Buf) : cstring (name.map some ++ some 0 :: X) = .ok name := by
  rw [cstring_some, takeWhile_plain h]

/-- The buffer after the last character of the line was replaced by the terminator. -/
theorem set_last (pre name : Bytes) (c : UInt8) (X : Buf) :
    ((pre ++ name ++ [c]).map some ++ some 0 :: X).set ((pre ++ name ++ [c]).length - 1) (some 0) =
      pre.map some ++ (name.map some ++ some 0 :: some 0 :: X) := by
  have : (pre ++ name ++ [c]).map some ++ some 0 :: X = (pre ++ name).map some ++ (some c :: some 0 :: X) := by simp
  rw [this, List.set_append_right _ _ (by simp)]
  simp

theorem drop_pre {pre : Bytes} {k : ℕ} (hpre : pre.length = k) (Y : Buf) : (pre.map some ++ Y).drop k = Y := by
  rw [List.drop_append_of_le_length (by simp [hpre]), List.drop_of_length_le (by simp [hpre]), List.nil_append]

theorem ofC_ok {α : Type} {c : C α} {a : α} (e : c = .ok a) (h : Heap) : ofC c h = .ok (a, h) := by
  rw [ofC, e]; rfl

theorem whole_eq (key : B32) : whole key.toList = .ok key := by
  rw [whole, dif_pos (by simp)]
  congr 1

theorem keyEnd_line (key : B32) {p : UInt8} (h32 : p ≠ 32) (rest : Bytes) :
    keyEnd (chars key ++ [p, 32] ++ rest) = 44 := by
  have : chars key ++ [p, 32] ++ rest = (chars key ++ [p]) ++ 32 :: rest := by simp
  rw [this, keyEnd_blank]
  · simp [chars_length]
  · rw [List.mem_append, not_or, List.mem_singleton]
    exact ⟨not_mem_chars (by decide), Ne.symm h32⟩

theorem take_line (key : B32) (p : UInt8) (rest : Bytes) : (chars key ++ [p, 32] ++ rest).take 44 = chars key ++ [p] := by
  have : chars key ++ [p, 32] ++ rest = (chars key ++ [p]) ++ 32 :: rest := by simp
  rw [this, List.take_append_of_le_length (by simp [chars_length]), List.take_of_length_le (by simp [chars_length])]

/-- One round with a line whose key is complete. -/
theorem loadLines_key (grow : ℕ → ℕ) (dvp : ℕ) (key : B32) {p c : UInt8} (hp : ¬ InAlphabet p) (h32 : p ≠ 32) {name : Bytes}
    (hn : 0 ∉ name) (buf : Buf) :
    ∃ X : Buf, ∀ ls, loadLines grow dvp ((chars key ++ [p, 32] ++ name ++ [c]) :: ls) buf =
      (do let pp ← addPeer dvp (some name) key
          if pp = 0 then pure ()
          else loadLines grow dvp ls ((chars key ++ [p, 32]).map some ++ (name.map some ++ some 0 :: some 0 :: X))) := by
  have hl : (chars key ++ [p, 32]).length = 45 := by simp [chars_length]
  obtain ⟨X, hX⟩ := fill_eq grow buf (chars key ++ [p, 32] ++ name ++ [c])
  refine ⟨X, fun ls => ?_⟩
  rw [loadLines]
  have hk : keyEnd (chars key ++ [p, 32] ++ name ++ [c]) = 44 := by
    rw [List.append_assoc _ name]; exact keyEnd_line key h32 _
  have ht : (chars key ++ [p, 32] ++ name ++ [c]).take 44 = chars key ++ [p] := by
    rw [List.append_assoc _ name]; exact take_line key p _
  simp only [hk, ne_eq, not_true_eq_false, if_false, ht, base642bin_line key hp, hX, set_last, drop_pre hl]
  funext h
  rw [run_bind, ofC_ok (cstring_name hn _), C.ok_bind, run_bind, ofC_ok (whole_eq key), C.ok_bind]

theorem loadPeer_heap {a : ℕ} {h h' : Heap} {x : UInt32 × ℕ × ℕ} (e : loadPeer a h = .ok (x, h')) : h' = h := by
  unfold loadPeer at e
  rw [run_bind] at e
  unfold load at e
  by_cases h0 : a = 0
  · rw [if_pos h0] at e; cases e
  · rw [if_neg h0] at e
    cases hm : h.mem a with
    | none => rw [hm] at e; cases e
    | some b =>
      rw [hm] at e
      cases b <;> first | (cases e; rfl) | cases e

theorem readId_ok {pp : ℕ} {h h' : Heap} {i : Option UInt32} (e : readId pp h = .ok (i, h')) :
    h' = h ∧ (pp = 0 → i = none) := by
  rw [readId] at e
  by_cases hp : pp = 0
  · rw [if_pos hp, run_pure] at e
    cases e
    exact ⟨rfl, fun _ => rfl⟩
  · rw [if_neg hp, run_bind] at e
    obtain ⟨⟨x, h1⟩, e1, e2⟩ := C.bind_eq_ok.mp e
    rw [run_pure] at e2
    cases e2
    refine ⟨?_, fun h0 => absurd h0 hp⟩
    unfold peerGetId at e1
    rw [run_bind] at e1
    obtain ⟨⟨x, h2⟩, e5, e3⟩ := C.bind_eq_ok.mp e1
    rw [run_pure] at e3
    cases e3
    exact loadPeer_heap e5

section
variable [NoiseCrypto]

/-- Lines of peers that are all added. -/
theorem loadLines_entries (grow : ℕ → ℕ) (dvp : ℕ) (ls : List Bytes) : ∀ (es : List Spec.AuthKeys.Entry), (∀ e ∈ es, Plain e.2) →
    ∀ (h h2 : Heap) (outs : List Out), calls dvp (adds es) h = .ok (outs, h2) → Out.added none ∉ outs →
    ∀ buf, ∃ buf', loadLines grow dvp (es.map line ++ ls) buf h = loadLines grow dvp ls buf' h2
  | [], _, h, h2, outs, e, _, buf => by
    have : h2 = h := by
      have : (pure [] : M (List Out)) h = .ok (outs, h2) := e
      rw [run_pure] at this
      cases this
      rfl
    exact ⟨buf, by rw [this]; rfl⟩
  | x :: es, hp, h, h2, outs, e, ho, buf => by
    have e : (do let r ← call dvp (.add (some x.2) x.1); let rs ← calls dvp (adds es); pure (r :: rs) : M (List Out)) h =
      .ok (outs, h2) := e
    rw [run_bind] at e
    obtain ⟨⟨r, h1⟩, e1, e⟩ := C.bind_eq_ok.mp e
    simp only [run_bind] at e
    obtain ⟨⟨rs, h3⟩, e2, e⟩ := C.bind_eq_ok.mp e
    rw [run_pure] at e
    cases e
    unfold call at e1
    simp only [run_bind] at e1
    obtain ⟨⟨pp, h4⟩, e3, e1⟩ := C.bind_eq_ok.mp e1
    simp only [run_bind] at e1
    obtain ⟨⟨i, h5⟩, e4, e1⟩ := C.bind_eq_ok.mp e1
    rw [run_pure] at e1
    cases e1
    obtain ⟨rfl, hi⟩ := readId_ok e4
    rw [List.mem_cons, not_or] at ho
    have hpp : pp ≠ 0 := fun h0 => ho.1 (by rw [hi h0])
    obtain ⟨X1, eb⟩ := loadLines_key grow dvp x.1 (p := 61) (c := 10) (by decide) (by decide) (hp x (by simp)).2 buf
    obtain ⟨buf', er⟩ := loadLines_entries grow dvp ls es (fun e he => hp e (by simp [he])) h5 h3 rs e2 ho.2 _
    refine ⟨buf', ?_⟩
    rw [← er]
    have : (x :: es).map line ++ ls = (chars x.1 ++ [61, 32] ++ x.2 ++ [10]) :: (es.map line ++ ls) := rfl
    rw [this, eb, run_bind, e3, C.ok_bind]
    simp only []
    rw [if_neg hpp]

/-! ### Any file -/

variable {h0 h : Heap} {dvp : ℕ} {d : Dev} {X : Blocks} {prlg pub : Bytes} {n : UInt32}

/-- Registration of one peer as a call. -/
theorem calls_add (s : Represents h0 h dvp d X prlg pub n) (name : Bytes) (key : B32) :
    ∃ pp h' i, addPeer dvp (some name) key h = .ok (pp, h') ∧ call dvp (.add (some name) key) h = .ok (.added i, h') ∧
      Represents h0 h' dvp (d.add (some name) key).2 X prlg pub n := by
  obtain ⟨r, istr, ns, hr, rfl⟩ := s
  obtain ⟨pp, h', i, e1, -, e3, e4⟩ := hr.addPeer (some name) key
  refine ⟨pp, h', i, e1, ?_, e4⟩
  unfold call
  simp only [run_bind, e1, C.ok_bind, e3]
  rfl

theorem calls_cons (o : Op) (os : List Op) {h h1 h2 : Heap} {r : Out} {rs : List Out} (e1 : call dvp o h = .ok (r, h1))
    (e2 : calls dvp os h1 = .ok (rs, h2)) : calls dvp (o :: os) h = .ok (r :: rs, h2) := by
  unfold calls
  simp only [run_bind, e1, C.ok_bind, e2]
  rfl

/-- What is registered is in the file. -/
theorem loadLines_only (grow : ℕ → ℕ) : ∀ (ls : List Bytes) (buf : Buf) (h h' : Heap) (d : Dev),
    Represents h0 h dvp d X prlg pub n → loadLines grow dvp ls buf h = .ok ((), h') →
    ∃ es outs, calls dvp (adds es) h = .ok (outs, h') ∧ ∀ e ∈ es, ∃ l ∈ ls, l.take 43 = chars e.1
  | [], _, h, h', _, _, e => by
    have : (pure () : M Unit) h = .ok ((), h') := e
    rw [run_pure] at this
    cases this
    exact ⟨[], [], rfl, by simp⟩
  | l :: ls, buf, h, h', d, s, e => by
    rw [loadLines] at e
    simp only [] at e
    by_cases hk : keyEnd l ≠ 44
    · rw [if_pos hk, run_pure] at e
      cases e
      exact ⟨[], [], rfl, by simp⟩
    · rw [if_neg hk] at e
      cases hb : base642bin 32 (l.take 44) with
      | none =>
        rw [hb] at e
        simp only [run_pure] at e
        cases e
        exact ⟨[], [], rfl, by simp⟩
      | some bin =>
        rw [hb] at e
        rw [not_not] at hk
        simp only [run_bind] at e
        obtain ⟨⟨name, h1⟩, e1, e⟩ := C.bind_eq_ok.mp e
        obtain ⟨⟨key, h2⟩, e2, e⟩ := C.bind_eq_ok.mp e
        simp only [] at e2 e
        obtain ⟨a1, ea1, e1'⟩ := C.bind_eq_ok.mp e1
        cases e1'
        obtain ⟨a2, ea2, e2'⟩ := C.bind_eq_ok.mp e2
        cases e2'
        obtain ⟨⟨pp, h3⟩, e3, e⟩ := C.bind_eq_ok.mp e
        obtain ⟨pp', h3', i, e3', ec, s'⟩ := calls_add s name key
        rw [e3] at e3'
        cases e3'
        have hlen : 44 ≤ l.length := by
          have := List.IsPrefix.length_le (List.takeWhile_prefix (l := l) (fun c : UInt8 => decide (c ≠ 32)))
          unfold keyEnd at hk
          omega
        have hkey : l.take 43 = chars key := by
          unfold whole at ea2
          split at ea2
          · rename_i h32
            obtain ⟨k, hk1, hk2⟩ := base642bin_whole (by rw [List.length_take]; omega) hb h32
            rw [List.take_take] at hk2
            cases ea2
            have : k = ⟨bin.toArray, by simpa using h32⟩ := Vector.toList_inj.1 (by rw [hk1]; simp [Vector.toList])
            rw [← this]
            exact hk2
          · exact absurd ea2 (by simp)
        simp only [] at e
        split at e
        · rw [run_pure] at e
          cases e
          exact ⟨[(key, name)], [.added i], calls_cons _ [] ec rfl, by simpa using Or.inl hkey⟩
        · obtain ⟨es, outs, e5, h5⟩ := loadLines_only grow ls _ _ _ _ s' e
          refine ⟨(key, name) :: es, _, calls_cons _ _ ec e5, fun x hx => ?_⟩
          rcases List.mem_cons.mp hx with rfl | hx
          · exact ⟨l, by simp, hkey⟩
          · obtain ⟨l', hl', h'⟩ := h5 x hx
            exact ⟨l', by simp [hl'], h'⟩

theorem base642bin_full {s bin : Bytes} (hl : s.length = 44) (ha : ∀ c ∈ s.take 43, InAlphabet c)
    (h : base642bin 32 s = some bin) : bin.length = 32 := by
  obtain ⟨p, q, rfl, hp, hq⟩ := split_alphabet s
  rw [List.length_append] at hl
  rcases Nat.lt_or_ge p.length 44 with hlt | hge
  · have h43 : p.length = 43 := by
      by_contra hne
      cases q with
      | nil => simp at hl; omega
      | cons c q =>
        refine hq c rfl (ha c ?_)
        rw [List.mem_take_iff_getElem]
        refine ⟨p.length, by simp at hl ⊢; omega, by simp⟩
    obtain ⟨a, b, e, h1, h2, h3⟩ := base642bin_chars (maxLen := 32) hp hq (by omega)
    rw [e] at h
    split at h
    · exact absurd h (by simp)
    · obtain rfl := Option.some.inj h
      omega
  · have hq0 : q = [] := List.eq_nil_of_length_eq_zero (by omega)
    subst hq0
    rw [List.append_nil] at h
    exact absurd (base642bin_long hp (by omega)) (by rw [h]; simp)

theorem not_blank {l : Bytes} {k : ℕ} (h : keyEnd l = k) : 32 ∉ l.take k := by
  have h1 : l.take k = l.takeWhile (· ≠ 32) := by
    rw [← h, keyEnd]
    exact (List.prefix_iff_eq_take.mp (List.takeWhile_prefix _)).symm
  rw [h1]
  intro hb
  have := List.mem_takeWhile_imp hb
  simp at this

theorem keyEnd_le (l : Bytes) : keyEnd l ≤ l.length := List.IsPrefix.length_le (List.takeWhile_prefix _)

theorem loadLines_safe (grow : ℕ → ℕ) : ∀ (ls : List Bytes), (∀ l ∈ ls, Complete l) → ∀ (buf : Buf) (h : Heap) (d : Dev),
    Represents h0 h dvp d X prlg pub n → ∃ h', loadLines grow dvp (ls.map (· ++ [10])) buf h = .ok ((), h')
  | [], _, _, h, _, _ => ⟨h, rfl⟩
  | l :: ls, hc, buf, h, d, s => by
    rw [List.map_cons, loadLines]
    simp only []
    by_cases hk : keyEnd (l ++ [10]) ≠ 44
    · rw [if_pos hk]
      exact ⟨h, rfl⟩
    · rw [if_neg hk]
      rw [not_not] at hk
      have hle := keyEnd_le (l ++ [10])
      rw [hk, List.length_append, List.length_singleton] at hle
      have hnb : 32 ∉ l.take 44 := fun hb => not_blank hk (by rw [List.take_append]; exact List.mem_append_left _ hb)
      rcases hc l (by simp) with hb | hb | ⟨ha, hl⟩
      · exact absurd hb hnb
      · omega
      · have ht : (l ++ [10]).take 44 = l.take 44 := List.take_append_of_le_length (by omega)
        rw [ht]
        cases hbin : base642bin 32 (l.take 44) with
        | none => exact ⟨h, rfl⟩
        | some bin =>
          have h32 := base642bin_full (s := l.take 44) (by rw [List.length_take]; omega)
            (by rw [List.take_take]; exact fun c hc => mem_alphabet.mp (ha c hc)) hbin
          obtain ⟨Y, hY⟩ := fill_eq grow buf (l ++ [10])
          have hsplit : l ++ [10] = l.take 45 ++ l.drop 45 ++ [10] := by rw [List.take_append_drop]
          have hname : cstring (((fill grow buf (l ++ [10])).set ((l ++ [10]).length - 1) (some 0)).drop 45) =
              .ok ((l.drop 45).takeWhile (· ≠ 0)) := by
            rw [hY, hsplit, set_last, drop_pre (by rw [List.length_take]; omega), cstring_some]
          have hkey : whole bin = .ok ⟨bin.toArray, by simpa using h32⟩ := by rw [whole, dif_pos h32]
          obtain ⟨pp, h', i, e1, -, s'⟩ := calls_add s ((l.drop 45).takeWhile (· ≠ 0)) ⟨bin.toArray, by simpa using h32⟩
          simp only [run_bind, ofC_ok hname, C.ok_bind, ofC_ok hkey, e1]
          split
          · exact ⟨h', rfl⟩
          · exact loadLines_safe grow ls (fun l hl => hc l (by simp [hl])) _ h' _ s'

/-! ### Adding peers one after the other -/

theorem run_adds : ∀ (es : List Spec.AuthKeys.Entry) (d : Dev), (∀ e ∈ es, 0 ∉ e.2) → (es.map (·.1)).Nodup →
    (∀ e ∈ es, e.1 ∉ d.peers.map (·.key)) → d.counter.toNat + es.length ≤ 4294967295 →
    Out.added none ∉ (d.run (adds es)).1 ∧
      (d.run (adds es)).2.peers.map (fun p => (p.key, p.name)) = es.reverse ++ d.peers.map (fun p => (p.key, p.name))
  | [], d, _, _, _, _ => by simp [adds, Dev.run]
  | e :: es, d, h0, hk, hd, hc => by
    rw [List.length_cons] at hc
    have hc' : d.counter ≠ 4294967295 := by
      intro h
      rw [h] at hc
      have : (4294967295 : UInt32).toNat = 4294967295 := rfl
      omega
    rw [List.map_cons, List.nodup_cons] at hk
    have hadd : d.add (some e.2) e.1 = (.added (some d.counter),
        { d with peers := ⟨d.counter, e.2, e.1⟩ :: d.peers, counter := d.counter + 1 }) := by
      rw [Dev.add, if_neg (by rw [not_or]; exact ⟨hc', hd e (by simp)⟩)]
      simp only [text, Option.getD_some, takeWhile_plain (h0 e (by simp))]
    have ih := run_adds es { d with peers := ⟨d.counter, e.2, e.1⟩ :: d.peers, counter := d.counter + 1 }
      (fun x hx => h0 x (by simp [hx])) hk.2 (by
        intro x hx hm
        rw [List.map_cons, List.mem_cons] at hm
        rcases hm with hm | hm
        · exact hk.1 (List.mem_map.mpr ⟨x, hx, hm⟩)
        · exact hd x (by simp [hx]) hm) (by rw [counter_succ hc']; omega)
    have hrun : d.run (adds (e :: es)) = (Out.added (some d.counter) ::
        (({ d with peers := ⟨d.counter, e.2, e.1⟩ :: d.peers, counter := d.counter + 1 } : Dev).run (adds es)).1,
        (({ d with peers := ⟨d.counter, e.2, e.1⟩ :: d.peers, counter := d.counter + 1 } : Dev).run (adds es)).2) := by
      show (_, _) = _
      simp only [Dev.step, hadd]
      rfl
    rw [hrun]
    refine ⟨?_, ?_⟩
    · rw [List.mem_cons, not_or]
      exact ⟨by simp, ih.1⟩
    · rw [ih.2]
      simp

/-! ### Where the lines are -/

theorem lines_flatten : ∀ s : Bytes, (lines s).flatten = s
  | [] => rfl
  | c :: s => by
    have ih := lines_flatten s
    rw [lines]
    split
    · rename_i hc
      rw [List.flatten_cons, ih, hc]
      rfl
    · cases hs : lines s with
      | nil => rw [hs] at ih; rw [← ih]; rfl
      | cons x xs => rw [hs] at ih; rw [← ih]; rfl

theorem lines_before : ∀ (s : Bytes) (pre : List Bytes) (l : Bytes) (post : List Bytes), lines s = pre ++ l :: post →
    pre = [] ∨ pre.flatten.getLast? = some 10
  | [], pre, l, post, h => by simp [lines] at h
  | c :: s, pre, l, post, h => by
    cases pre with
    | nil => exact Or.inl rfl
    | cons x pre =>
      right
      rw [lines] at h
      split at h
      · rw [List.cons_append, List.cons.injEq] at h
        rw [← h.1, List.flatten_cons]
        rcases lines_before s pre l post h.2 with rfl | h'
        · rfl
        · rw [List.getLast?_append, h']; rfl
      · cases hs : lines s with
        | nil => rw [hs] at h; simp at h
        | cons y ys =>
          rw [hs] at h
          simp only [List.cons_append, List.cons.injEq] at h
          have := lines_before s (y :: pre) l post (by rw [hs, h.2]; rfl)
          rcases this with h' | h'
          · exact absurd h' (by simp)
          · rw [← h.1]
            show (c :: (y :: pre).flatten).getLast? = some 10
            rw [List.getLast?_cons, h']
            rfl

theorem mem_lines {s l : Bytes} (h : l ∈ lines s) : ∃ a b, s = a ++ l ++ b ∧ (a = [] ∨ a.getLast? = some 10) := by
  obtain ⟨pre, post, e⟩ := List.append_of_mem h
  refine ⟨pre.flatten, post.flatten, ?_, ?_⟩
  · have := lines_flatten s
    rw [e] at this
    rw [← this]
    simp
  · rcases lines_before s pre l post e with rfl | h'
    · exact Or.inl rfl
    · exact Or.inr h'

/-- The rest of the file decides only about what follows the lines of peers. -/
theorem loadLines_prefix (grow : ℕ → ℕ) (dvp : ℕ) (ls ls' : List Bytes)
    (hls : ∀ buf, loadLines grow dvp ls buf = loadLines grow dvp ls' buf) : ∀ (es : List Spec.AuthKeys.Entry), (∀ e ∈ es, Plain e.2) →
    ∀ buf, loadLines grow dvp (es.map line ++ ls) buf = loadLines grow dvp (es.map line ++ ls') buf
  | [], _, buf => hls buf
  | e :: es, hp, buf => by
    obtain ⟨X, eb⟩ := loadLines_key grow dvp e.1 (p := 61) (c := 10) (by decide) (by decide) (hp e (by simp)).2 buf
    have h1 : ∀ ls, (e :: es).map line ++ ls = (chars e.1 ++ [61, 32] ++ e.2 ++ [10]) :: (es.map line ++ ls) := fun _ => rfl
    rw [h1, h1, eb, eb, loadLines_prefix grow dvp ls ls' hls es (fun e he => hp e (by simp [he]))]

theorem loadLines_blank (grow : ℕ → ℕ) (dvp : ℕ) {l : Bytes} (h : 32 ∈ l.take 44) (ls : List Bytes) (buf : Buf) :
    loadLines grow dvp (l :: ls) buf = pure () := by
  rw [loadLines]
  simp only []
  rw [if_pos fun hk => not_blank hk h]

/-- A line with a key of which a part only can be decoded. -/
theorem loadLines_part (grow : ℕ → ℕ) (dvp : ℕ) {p q name : Bytes} {c : UInt8} (hp : ∀ c ∈ p, InAlphabet c) (h4 : 4 ∣ p.length)
    (h43 : p.length < 43) (hq : ∀ c ∈ q.head?, ¬ InAlphabet c) (h44 : p.length + q.length = 44) (hb : 32 ∉ q)
    (ls : List Bytes) (buf : Buf) (h : Heap) : loadLines grow dvp ((p ++ q ++ 32 :: name ++ [c]) :: ls) buf h = .ub .uninit := by
  have hpq : (p ++ q).length = 44 := by rw [List.length_append, h44]
  have hassoc : p ++ q ++ 32 :: name ++ [c] = (p ++ q) ++ 32 :: (name ++ [c]) := by simp
  have hk : keyEnd (p ++ q ++ 32 :: name ++ [c]) = 44 := by
    rw [hassoc, keyEnd_blank, hpq]
    rw [List.mem_append, not_or]
    refine ⟨fun h' => ?_, hb⟩
    obtain ⟨d, hd⟩ := hp _ h'
    exact (charToByte_some hd).2.2.1 rfl
  have ht : (p ++ q ++ 32 :: name ++ [c]).take 44 = p ++ q := by
    rw [hassoc, List.take_append_of_le_length (by omega), List.take_of_length_le (by omega)]
  obtain ⟨a, bin, e, h1, -, h3⟩ := base642bin_chars (maxLen := 32) hp hq (by omega)
  have ha : a = 0 := by omega
  subst ha
  rw [if_neg (by simp [Nat.mod_one])] at e
  rw [loadLines]
  obtain ⟨Y, hY⟩ := fill_eq grow buf (p ++ q ++ 32 :: name ++ [c])
  have hsplit : p ++ q ++ 32 :: name ++ [c] = (p ++ q ++ [32]) ++ name ++ [c] := by simp
  have hname : cstring (((fill grow buf (p ++ q ++ 32 :: name ++ [c])).set ((p ++ q ++ 32 :: name ++ [c]).length - 1)
      (some 0)).drop 45) = .ok (name.takeWhile (· ≠ 0)) := by
    rw [hY, hsplit, set_last, drop_pre (by rw [List.length_append, hpq]; rfl), cstring_some]
  simp only [hk, ne_eq, not_true_eq_false, if_false, ht, e]
  have hw : whole bin = .ub .uninit := by rw [whole, dif_neg (by omega)]
  rw [run_bind, ofC_ok hname, C.ok_bind, run_bind]
  simp only [ofC, hw]
  rfl

/-- A line with a key and nothing else, in a buffer in which the bytes from the 45th on are known. -/
theorem loadLines_nameless (grow : ℕ → ℕ) (dvp : ℕ) (key : B32) (buf : Buf) (h : Heap) (ls : List Bytes) :
    (∀ Y Z : Buf, buf = Y ++ Z → Y.length = 45 → ∀ name, cstring Z = .ok name →
      ∃ buf', loadLines grow dvp ((chars key ++ [10]) :: ls) buf h =
        (do let pp ← addPeer dvp (some name) key
            if pp = 0 then pure () else loadLines grow dvp ls buf') h) ∧
    (buf = [] → ∃ r, loadLines grow dvp ((chars key ++ [10]) :: ls) buf h = .ub r) := by
  have hl : (chars key ++ [10]).length = 44 := by simp [chars_length]
  have hk : keyEnd (chars key ++ [10]) = 44 := by
    rw [keyEnd, List.takeWhile_eq_self_iff.mpr, hl]
    intro c hc
    rw [List.mem_append, List.mem_singleton] at hc
    rcases hc with hc | rfl
    · obtain ⟨d, hd⟩ := chars_mem hc
      simpa using (charToByte_some hd).2.2.1
    · decide
  have ht : (chars key ++ [10]).take 44 = chars key ++ [10] := List.take_of_length_le (by omega)
  have hb := base642bin_line key (c := 10) (by decide)
  have hset : ∀ Z : Buf, (((chars key ++ [10]).map some ++ [some 0] ++ Z).set ((chars key ++ [10]).length - 1) (some 0)).drop 45 =
      Z := by
    intro Z
    rw [List.append_assoc, List.set_append_left _ _ (by rw [List.length_map]; omega), ← List.append_assoc,
      List.drop_append_of_le_length (by simp [chars_length]), List.drop_of_length_le (by simp [chars_length]), List.nil_append]
  constructor
  · rintro Y Z rfl hY name hname
    have hfill : fill grow (Y ++ Z) (chars key ++ [10]) = (chars key ++ [10]).map some ++ [some 0] ++ Z := by
      unfold fill
      simp only []
      rw [if_pos (by simp [chars_length]; omega)]
      congr 1
      rw [List.drop_append_of_le_length (by simp [chars_length]; omega), List.drop_of_length_le (by simp [chars_length]; omega),
        List.nil_append]
    refine ⟨((chars key ++ [10]).map some ++ [some 0] ++ Z).set ((chars key ++ [10]).length - 1) (some 0), ?_⟩
    rw [loadLines]
    simp only [hk, ne_eq, not_true_eq_false, if_false, ht, hb, hfill, hset]
    rw [run_bind, ofC_ok hname, C.ok_bind, run_bind, ofC_ok (whole_eq key), C.ok_bind]
  · rintro rfl
    have hfill : ∃ m, fill grow [] (chars key ++ [10]) = (chars key ++ [10]).map some ++ [some 0] ++ List.replicate m none := by
      unfold fill
      simp only []
      rw [if_neg (by simp)]
      exact ⟨_, rfl⟩
    obtain ⟨m, hm⟩ := hfill
    rw [loadLines]
    simp only [hk, ne_eq, not_true_eq_false, if_false, ht, hb, hm, hset]
    rw [run_bind]
    cases m with
    | zero => exact ⟨.oob, rfl⟩
    | succ m => exact ⟨.uninit, rfl⟩

end

end Verif.Noise.Auth
