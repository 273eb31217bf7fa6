import Verif.Model.Report
import Verif.Spec.Report
import Mathlib.Tactic.Ring

/-!
# Lemmas on the texts about cheaters
-/

namespace Verif.TpDkg.Report

open Spec.Report

/-! ### Digits -/

theorem digit?_digit {d : ℕ} (h : d < 10) : digit? (UInt8.ofNat (48 + d)) = some d := by
  have : ∀ d : Fin 10, digit? (UInt8.ofNat (48 + d.1)) = some d.1 := by decide
  exact this ⟨d, h⟩

theorem dec_ne (n : ℕ) : dec n ≠ [] := by
  rw [dec]; split <;> simp

theorem dec_zero (n : ℕ) : (0 : UInt8) ∉ dec n := by
  have h0 : ∀ d : Fin 10, (0 : UInt8) ≠ UInt8.ofNat (48 + d.1) := by decide
  induction n using Nat.strong_induction_on with
  | _ n ih =>
    rw [dec]
    split
    · rename_i h
      rw [List.mem_singleton]
      exact h0 ⟨n, h⟩
    · rename_i h
      rw [List.mem_append, not_or, List.mem_singleton]
      exact ⟨ih (n / 10) (by omega), h0 ⟨n % 10, by omega⟩⟩

theorem dec_length (k : ℕ) : ∀ n, n < 10 ^ (k + 1) → (dec n).length ≤ k + 1 := by
  induction k with
  | zero => intro n h; rw [dec, if_pos (by simpa using h)]; simp
  | succ k ih =>
    intro n h
    rw [dec]
    split
    · simp
    · rw [List.length_append, List.length_singleton]
      have := ih (n / 10) (by rw [Nat.div_lt_iff_lt_mul (by decide)]; calc n < _ := h
                                _ = _ := by ring)
      omega

theorem scan_dec (n : ℕ) : ∀ cur rest, ∃ m, scan cur (dec n ++ rest) = scan (some m) rest ∧
    (cur.getD 0 = 0 → m = n) := by
  induction n using Nat.strong_induction_on with
  | _ n ih =>
    intro cur rest
    rw [dec]
    split
    · rename_i h
      refine ⟨cur.getD 0 * 10 + n, ?_, fun h0 => by omega⟩
      rw [List.singleton_append, scan, digit?_digit h]
    · rename_i h
      obtain ⟨m, e, hm⟩ := ih (n / 10) (by omega) cur ([UInt8.ofNat (48 + n % 10)] ++ rest)
      refine ⟨m * 10 + n % 10, ?_, fun h0 => by have := hm h0; omega⟩
      rw [List.append_assoc, e, List.singleton_append, scan, digit?_digit (by omega)]
      rfl

theorem scan_decInt (z : Int) (rest : Bytes) : scan none (decInt z ++ rest) = scan (some z.natAbs) rest := by
  obtain ⟨m, e, hm⟩ := scan_dec z.natAbs none rest
  have hm := hm rfl
  subst hm
  rw [decInt]
  split
  · rw [List.cons_append, scan]
    exact e
  · exact e

/-! ### Literals -/

/-- The text ends with a character that is no digit. -/
def Ends (s : Bytes) : Prop := ∃ c, s.getLast? = some c ∧ digit? c = none

theorem scan_append (rest : Bytes) : ∀ (s : Bytes) (cur : Option ℕ), Ends s → scan cur (s ++ rest) = scan cur s ++ scan none rest
  | [], _, h => by obtain ⟨c, h, -⟩ := h; simp at h
  | [c], cur, h => by
    obtain ⟨c', h, hd⟩ := h
    simp only [List.getLast?_singleton, Option.some.injEq] at h
    subst h
    simp [scan, hd]
  | c :: c' :: s, cur, h => by
    have h' : Ends (c' :: s) := by
      obtain ⟨x, h, hd⟩ := h
      exact ⟨x, by rw [← h, List.getLast?_cons_cons], hd⟩
    rw [List.cons_append, scan, scan]
    cases digit? c with
    | some d => exact scan_append rest (c' :: s) _ h'
    | none =>
      simp only []
      rw [scan_append rest (c' :: s) _ h', List.append_assoc]

/-- A literal that starts and ends with other characters than digits. -/
def Bounded (s : String) : Prop :=
  (∃ c, (str s).head? = some c ∧ digit? c = none) ∧ Ends (str s)

/-- The same as a test. -/
def bounded (s : String) : Bool :=
  ((str s).head?.any fun c => digit? c == none) && ((str s).getLast?.any fun c => digit? c == none)

theorem bounded_iff {s : String} (h : bounded s = true) : Bounded s := by
  simp only [bounded, Bool.and_eq_true, Option.any_eq_true_iff_get, beq_iff_eq] at h
  obtain ⟨⟨h1, h2⟩, h3, h4⟩ := h
  exact ⟨⟨_, by simp, h2⟩, ⟨_, by simp, h4⟩⟩

theorem scan_lit {s : String} (h : bounded s = true) (rest : Bytes) :
    scan none (str s ++ rest) = scan none (str s) ++ scan none rest := scan_append rest _ _ (bounded_iff h).2

theorem scan_some_lit {s : String} (h : bounded s = true) (n : ℕ) (rest : Bytes) :
    scan (some n) (str s ++ rest) = n :: (scan none (str s) ++ scan none rest) := by
  obtain ⟨⟨c, h1, h2⟩, h3⟩ := bounded_iff h
  rw [scan_append rest _ _ h3]
  cases hs : str s with
  | nil => rw [hs] at h1; simp at h1
  | cons x xs =>
    rw [hs] at h1
    simp only [List.head?_cons, Option.some.injEq] at h1
    subst h1
    simp [scan, h2]

theorem scan_recvErr (e : Int) : bounded (recvErr e) = true ∧ scan none (str (recvErr e)) = [] := by
  unfold recvErr
  repeat' split
  all_goals decide +kernel

theorem str_length (s : String) : (str s).length = s.length := by simp [str, String.length_toList]

theorem recvErr_length (e : Int) : (str (recvErr e)).length ≤ 27 := by
  unfold recvErr
  repeat' split
  all_goals decide +kernel

theorem decInt_length {z : Int} (h : z.natAbs ≤ 2 ^ 31) : (decInt z).length ≤ 11 := by
  have := dec_length 9 z.natAbs (by norm_num at h ⊢; omega)
  unfold decInt
  split
  · rw [List.length_cons]; omega
  · omega

theorem u8_length (x : UInt8) : (u8 x).bytes.length ≤ 3 := by
  have := dec_length 2 x.toNat (by have := x.toNat_lt; omega)
  simp only [u8, Piece.bytes, decInt]
  rw [if_neg (by omega)]
  simpa using this

/-! ### Whole texts -/

/-- Literals start and end with other characters than digits, and numbers do not follow each other. -/
def Alt : List Piece → Prop
  | [] => True
  | .lit s :: ps => bounded s = true ∧ Alt ps
  | [.num _] => True
  | .num _ :: .lit s :: ps => bounded s = true ∧ Alt ps
  | .num _ :: .num _ :: _ => False

def nums : Piece → List ℕ
  | .lit s => scan none (str s)
  | .num z => [z.natAbs]

theorem scan_pieces : ∀ ps : List Piece, Alt ps → scan none ((ps.map Piece.bytes).flatten) = (ps.map nums).flatten
  | [], _ => rfl
  | .lit s :: ps, h => by
    rw [List.map_cons, List.flatten_cons, List.map_cons, List.flatten_cons, Piece.bytes, scan_lit h.1, scan_pieces ps h.2]
    rfl
  | [.num z], _ => by
    have := scan_decInt z []
    simpa [Piece.bytes, nums, scan] using this
  | .num z :: .lit s :: ps, h => by
    simp only [List.map_cons, List.flatten_cons, Piece.bytes]
    rw [scan_decInt, scan_some_lit h.1, scan_pieces ps h.2]
    simp [nums]
  | .num _ :: .num _ :: _, h => h.elim

theorem alt_pieces (t : Text) : Alt (pieces t) := by
  cases t <;> simp only [pieces, u8, Alt, and_true] <;> (repeat' apply And.intro) <;>
    first | decide +kernel | exact (scan_recvErr _).1

theorem decInt_zero (z : Int) : (0 : UInt8) ∉ decInt z := by
  unfold decInt
  split
  · rw [List.mem_cons, not_or]
    exact ⟨by decide, dec_zero _⟩
  · exact dec_zero _

/-- No zero byte in a literal. -/
def Clean : Piece → Prop
  | .lit s => ((str s).all (· != 0)) = true
  | .num _ => True

theorem Clean.bytes {p : Piece} (h : Clean p) : (0 : UInt8) ∉ p.bytes := by
  cases p with
  | lit s =>
    intro hm
    have := List.all_eq_true.mp h 0 hm
    simp at this
  | num z => exact decInt_zero z

theorem clean_recvErr (e : Int) : ((str (recvErr e)).all (· != 0)) = true := by
  unfold recvErr
  repeat' split
  all_goals decide +kernel

theorem clean_pieces (t : Text) : ∀ p ∈ pieces t, Clean p := by
  cases t <;> simp only [pieces, u8, List.forall_mem_cons, List.not_mem_nil, false_imp_iff, implies_true, and_true, Clean,
    true_and, and_true] <;> (repeat' apply And.intro) <;> first | decide +kernel | exact clean_recvErr _

theorem render_zero (t : Text) : (0 : UInt8) ∉ render t := by
  intro h
  rw [render, List.mem_flatten] at h
  obtain ⟨l, hm, h0⟩ := h
  obtain ⟨p, hp, rfl⟩ := List.mem_map.mp hm
  exact (clean_pieces t p hp).bytes h0

/-- The numbers in a text that have no bound of their own. -/
def Fits : Text → Prop
  | .notValidated s _ _ _ => s.natAbs ≤ 2 ^ 31
  | .badCode16 e | .badCode18 e | .badCode20 e => e.natAbs ≤ 2 ^ 31
  | .shareIndex _ _ i => i.natAbs ≤ 2 ^ 31
  | .badStep s => s.natAbs ≤ 2 ^ 31
  | _ => True

theorem u8_length' (x : UInt8) : (decInt (x.toNat : Int)).length ≤ 3 := u8_length x

theorem render_length (t : Text) (h : Fits t) : (render t).length ≤ 117 := by
  have hu := u8_length'
  have hr := recvErr_length
  have hd := @decInt_length
  cases t with
  | notValidated s p o e =>
    have l0 : (str "step ").length = 5 := by decide +kernel
    have l1 : (str " message from peer ").length = 19 := by decide +kernel
    have l2 : (str " for peer ").length = 10 := by decide +kernel
    have l3 : (str " could not be validated: ").length = 25 := by decide +kernel
    have hs := hd h
    have hp := hu p
    have ho := hu o
    have he := hr e
    simp only [render, pieces, u8, List.map_cons, List.map_nil, List.flatten_cons, List.flatten_nil, Piece.bytes,
      List.length_append, List.length_nil]
    omega
  | tooMany =>
    have l0 : (str "more than t^2 complaints, most peers are cheating.").length = 50 := by decide +kernel
    simp only [render, pieces, u8, List.map_cons, List.map_nil, List.flatten_cons, List.flatten_nil, Piece.bytes,
      List.length_append, List.length_nil]
    omega
  | invalidPeer p o =>
    have l0 : (str "peer ").length = 5 := by decide +kernel
    have l1 : (str " sent complaint about invalid peer ").length = 35 := by decide +kernel
    have l2 : (str ".").length = 1 := by decide +kernel
    have hp := hu p
    have ho := hu o
    simp only [render, pieces, u8, List.map_cons, List.map_nil, List.flatten_cons, List.flatten_nil, Piece.bytes,
      List.length_append, List.length_nil]
    omega
  | duplicate p o =>
    have l0 : (str "peer ").length = 5 := by decide +kernel
    have l1 : (str " sent a duplicate complaint about peer ").length = 39 := by decide +kernel
    have l2 : (str ".").length = 1 := by decide +kernel
    have hp := hu p
    have ho := hu o
    simp only [render, pieces, u8, List.map_cons, List.map_nil, List.flatten_cons, List.flatten_nil, Piece.bytes,
      List.length_append, List.length_nil]
    omega
  | badCode16 z =>
    have l0 : (str "invalid error code for step 16: ").length = 32 := by decide +kernel
    have hz := hd h
    simp only [render, pieces, u8, List.map_cons, List.map_nil, List.flatten_cons, List.flatten_nil, Piece.bytes,
      List.length_append, List.length_nil]
    omega
  | shareMsg p o e =>
    have l0 : (str "message containing encrypted share from peer ").length = 45 := by decide +kernel
    have l1 : (str " for peer ").length = 10 := by decide +kernel
    have l2 : (str " could not be validated: ").length = 25 := by decide +kernel
    have hp := hu p
    have ho := hu o
    have he := hr e
    simp only [render, pieces, u8, List.map_cons, List.map_nil, List.flatten_cons, List.flatten_nil, Piece.bytes,
      List.length_append, List.length_nil]
    omega
  | keyMsg p o e =>
    have l0 : (str "message revealing key encrypting share from peer ").length = 49 := by decide +kernel
    have l1 : (str " for peer ").length = 10 := by decide +kernel
    have l2 : (str " could not be validated: ").length = 25 := by decide +kernel
    have hp := hu p
    have ho := hu o
    have he := hr e
    simp only [render, pieces, u8, List.map_cons, List.map_nil, List.flatten_cons, List.flatten_nil, Piece.bytes,
      List.length_append, List.length_nil]
    omega
  | notComplained p o =>
    have l0 : (str "accused peer ").length = 13 := by decide +kernel
    have l1 : (str " revealed a key (for peer ").length = 26 := by decide +kernel
    have l2 : (str ") that was not complained about").length = 31 := by decide +kernel
    have hp := hu p
    have ho := hu o
    simp only [render, pieces, u8, List.map_cons, List.map_nil, List.flatten_cons, List.flatten_nil, Piece.bytes,
      List.length_append, List.length_nil]
    omega
  | hmac p o =>
    have l0 : (str "verification of hmac of message from accused peer ").length = 50 := by decide +kernel
    have l1 : (str " to complaining peer ").length = 21 := by decide +kernel
    have l2 : (str " failed").length = 7 := by decide +kernel
    have hp := hu p
    have ho := hu o
    simp only [render, pieces, u8, List.map_cons, List.map_nil, List.flatten_cons, List.flatten_nil, Piece.bytes,
      List.length_append, List.length_nil]
    omega
  | shareIndex p o z =>
    have l0 : (str "accused peer ").length = 13 := by decide +kernel
    have l1 : (str " sent an invalid share with index ").length = 34 := by decide +kernel
    have l2 : (str " to complaining peer ").length = 21 := by decide +kernel
    have hp := hu p
    have ho := hu o
    have hz := hd h
    simp only [render, pieces, u8, List.map_cons, List.map_nil, List.flatten_cons, List.flatten_nil, Piece.bytes,
      List.length_append, List.length_nil]
    omega
  | happy p o =>
    have l0 : (str "accused peer ").length = 13 := by decide +kernel
    have l1 : (str " revealed a key for happy peer ").length = 31 := by decide +kernel
    have hp := hu p
    have ho := hu o
    simp only [render, pieces, u8, List.map_cons, List.map_nil, List.flatten_cons, List.flatten_nil, Piece.bytes,
      List.length_append, List.length_nil]
    omega
  | notVerified p o =>
    have l0 : (str "accused peer ").length = 13 := by decide +kernel
    have l1 : (str " complained by peer ").length = 20 := by decide +kernel
    have l2 : (str " was not verified").length = 17 := by decide +kernel
    have hp := hu p
    have ho := hu o
    simp only [render, pieces, u8, List.map_cons, List.map_nil, List.flatten_cons, List.flatten_nil, Piece.bytes,
      List.length_append, List.length_nil]
    omega
  | invalidParams p o =>
    have l0 : (str "accused peer ").length = 13 := by decide +kernel
    have l1 : (str " provided invalid parameters to complaint from peer ").length = 52 := by decide +kernel
    have hp := hu p
    have ho := hu o
    simp only [render, pieces, u8, List.map_cons, List.map_nil, List.flatten_cons, List.flatten_nil, Piece.bytes,
      List.length_append, List.length_nil]
    omega
  | falselyAccused p o =>
    have l0 : (str "peer ").length = 5 := by decide +kernel
    have l1 : (str " was falsely accused by peer ").length = 29 := by decide +kernel
    have hp := hu p
    have ho := hu o
    simp only [render, pieces, u8, List.map_cons, List.map_nil, List.flatten_cons, List.flatten_nil, Piece.bytes,
      List.length_append, List.length_nil]
    omega
  | caught p o =>
    have l0 : (str "accused peer ").length = 13 := by decide +kernel
    have l1 : (str " was caught cheating by peer ").length = 29 := by decide +kernel
    have hp := hu p
    have ho := hu o
    simp only [render, pieces, u8, List.map_cons, List.map_nil, List.flatten_cons, List.flatten_nil, Piece.bytes,
      List.length_append, List.length_nil]
    omega
  | badCode18 z =>
    have l0 : (str "invalid error code for step 18: ").length = 32 := by decide +kernel
    have hz := hd h
    simp only [render, pieces, u8, List.map_cons, List.map_nil, List.flatten_cons, List.flatten_nil, Piece.bytes,
      List.length_append, List.length_nil]
    omega
  | mismatch p =>
    have l0 : (str "transcript mismatch peer ").length = 25 := by decide +kernel
    have hp := hu p
    simp only [render, pieces, u8, List.map_cons, List.map_nil, List.flatten_cons, List.flatten_nil, Piece.bytes,
      List.length_append, List.length_nil]
    omega
  | badCode20 z =>
    have l0 : (str "invalid error code for step 20: ").length = 32 := by decide +kernel
    have hz := hd h
    simp only [render, pieces, u8, List.map_cons, List.map_nil, List.flatten_cons, List.flatten_nil, Piece.bytes,
      List.length_append, List.length_nil]
    omega
  | badStep z =>
    have l0 : (str "invalid step ").length = 13 := by decide +kernel
    have hz := hd h
    simp only [render, pieces, u8, List.map_cons, List.map_nil, List.flatten_cons, List.flatten_nil, Piece.bytes,
      List.length_append, List.length_nil]
    omega

end Verif.TpDkg.Report
