import Verif.Model.Vectors
import Verif.Props.Oprf

/-!
# Property C97: the test of the vectors (`/repo/src/tests/test.c`, `testvecs2h.py`)

The specification of the vectors is the OPRF of RFC 9497 (`Spec.oprf`), that of the header is how a C compiler reads an
initialiser (`readInit`) and hexadecimal notation (`unhex`).
-/

set_option linter.unusedSectionVars false

namespace Verif.Props

open Ristretto Verif.Vectors

section
variable [Hashes] (G : Type) [Ristretto G]

/-- A test vector of the right sizes for the key `k` and the blinding scalar `r`. -/
structure Sized (h : Header) (k r : B32) : Prop where
  input : h.input.length ≤ 255
  blind : h.blind = r.toList
  sks : h.sks = k.toList
  blinded : h.blinded.length = 32
  evaluation : h.evaluation.length = 32
  output : h.output.length = 64

theorem differ_eq {a b : Bytes} {n : ℕ} (ha : a.length = n) (hb : b.length = n) : differ a b n = .ok (a != b) := by
  unfold differ
  rw [rd_ok (by omega), C.ok_bind, rd_ok (by omega), C.ok_bind, List.drop_zero, List.drop_zero, ← ha, List.take_length,
    ha, ← hb, List.take_length]

/-- **C97.** For every vector of the right sizes: the test returns 0 if the three expected values are those of RFC 9497 and 1
otherwise; no run is undefined. Missing: inputs of more than 255 bytes. -/
theorem C97_vector_partial (h : Header) (k r : B32) (hs : Sized h k r) (hk : maskedVal k ≠ 0) (hr : RandomScalar r)
    (hH : Spec.hashToGroup G Oprf.sha h.input ≠ 0) (scratch r0 b0 Z0 N0 : B32) (y0 : B64) :
    main G true scratch r0 b0 Z0 N0 y0 h =
      if h.blinded = (enc (r.val • Spec.hashToGroup G Oprf.sha h.input)).toList ∧
        h.evaluation = (enc (maskedVal k • r.val • Spec.hashToGroup G Oprf.sha h.input)).toList ∧
        h.output = Spec.oprf G Oprf.sha (maskedVal k) h.input
      then .ok 0 else .ok 1 := by
  set H := Spec.hashToGroup G Oprf.sha h.input with hHd
  have hxl : (UInt8.ofNat h.input.length).toNat = h.input.length := by have := hs.input; simp; omega
  have hkH : maskedVal k • H ≠ 0 := smul_ne_zero hk hH
  have hu : Oprf.unblind G true r (enc (maskedVal k • r.val • H)) N0 = (0, enc (maskedVal k • H)) := by
    have hr0 : r ≠ zero32 := fun h => hr.val_ne (by simp [h])
    have hi : scalarInvert r = (0, B32.ofZ (r.val)⁻¹) := Prod.ext ((scalarInvert_ret r).2 hr0) (scalarInvert_eq r)
    have e : (r.val)⁻¹ • maskedVal k • r.val • H = maskedVal k • H := by
      rw [smul_comm (maskedVal k), smul_smul, inv_mul_cancel₀ hr.val_ne, one_smul]
    unfold Oprf.unblind
    simp only [isValidPoint, dec_enc, hi, scalarmult, maskedVal_ofZ, e]
    simp [hkH, enc_eq_zero, smul_ne_zero hk (smul_ne_zero hr.val_ne hH), hk, hH, hr.val_ne]
  have hb : Oprf.blind G true scratch h.input (UInt8.ofNat h.input.length) r r0 b0 = .ok (0, r, enc (r.val • H)) := by
    have hrm : maskedVal r = r.val := maskedVal_canonical hr.1
    unfold Oprf.blind
    rw [if_neg (by simp), Oprf.hashToGroup_ok G h.input _ (by rw [hxl]), hxl, List.take_length]
    simp only [C.ok_bind, ne_eq, not_true_eq_false, if_false]
    rw [scalarmult_enc_ok _ _ (by rw [hrm]; exact smul_ne_zero hr.val_ne hH), hrm]
    simp [hHd]
  unfold main
  rw [rd_ok (by rw [hs.blind]; simp), C.ok_bind, List.drop_zero, hs.blind, List.take_of_length_le (by simp), toB32_toList, hb,
    C.ok_bind]
  dsimp only
  rw [if_neg (by decide), differ_eq (by rw [hs.blinded]; simp) rfl, C.ok_bind]
  by_cases h1 : h.blinded = (enc (r.val • H)).toList
  swap
  · rw [if_pos (by simpa [bne_iff_ne] using Ne.symm h1), if_neg (fun h' => h1 h'.1)]
  rw [if_neg (by simp [h1]), rd_ok (by rw [hs.sks]; simp), C.ok_bind, List.drop_zero, hs.sks, List.take_of_length_le (by simp),
    toB32_toList]
  have he : Oprf.evaluate G k (enc (r.val • H)) Z0 = (0, enc (maskedVal k • r.val • H)) := by
    unfold Oprf.evaluate
    exact scalarmult_enc_ok _ _ (smul_ne_zero hk (smul_ne_zero hr.val_ne hH))
  rw [he]
  dsimp only
  rw [if_neg (by decide), differ_eq (by rw [hs.evaluation]; simp) rfl, C.ok_bind]
  by_cases h2 : h.evaluation = (enc (maskedVal k • r.val • H)).toList
  swap
  · rw [if_pos (by simpa [bne_iff_ne] using Ne.symm h2), if_neg (fun h' => h2 h'.2.1)]
  rw [if_neg (by simp [h2]), hu]
  dsimp only
  rw [if_neg (by decide), C04_finalize_rfc h.input (by have := hs.input; omega), C.ok_bind]
  dsimp only
  rw [if_neg (by decide), differ_eq (by rw [hs.output]; simp) rfl, C.ok_bind]
  have ho : Spec.oprf G Oprf.sha (maskedVal k) h.input =
      (Hashes.sha512 (Spec.finalizeInput h.input (enc (maskedVal k • H)).toList)).toList := rfl
  by_cases h3 : h.output = Spec.oprf G Oprf.sha (maskedVal k) h.input
  · rw [if_neg (by rw [h3, ho]; simp), if_pos ⟨h1, h2, h3⟩]
  · rw [if_pos (by rw [← ho]; simpa [bne_iff_ne] using Ne.symm h3), if_neg (fun h' => h3 h'.2.2)]

/-- **C97, failure side.** Without locked memory the test returns 1. -/
theorem C97_mlock_fails (h : Header) (hb : h.blind.length = 32) (scratch r0 b0 Z0 N0 : B32) (y0 : B64) :
    main G false scratch r0 b0 Z0 N0 y0 h = .ok 1 := by
  unfold main
  rw [rd_ok (by omega), C.ok_bind, (C01_oprf_mlock_fails G h.input _ 0 _ scratch scratch scratch r0 b0 y0).1, C.ok_bind]
  rfl

/-- **C97, negation: longer inputs.** The test passes the length of the input as 8 bits to `oprf_Blind` and as 16 bits to
`oprf_Finalize`. For an input of 256 bytes the vector of the empty input's element is what passes the first comparison, so
that the right vector is refused. -/
theorem C97_long_input_violated (h : Header) (r : B32) (hi : h.input.length = 256) (hb : h.blind = r.toList)
    (hl : h.blinded.length = 32) (hr : RandomScalar r) (hH0 : Spec.hashToGroup G Oprf.sha [] ≠ 0)
    (hne : Spec.hashToGroup G Oprf.sha h.input ≠ Spec.hashToGroup G Oprf.sha [])
    (hright : h.blinded = (enc (r.val • Spec.hashToGroup G Oprf.sha h.input)).toList) (scratch r0 b0 Z0 N0 : B32) (y0 : B64) :
    main G true scratch r0 b0 Z0 N0 y0 h = .ok 1 := by
  have hxl : (UInt8.ofNat h.input.length) = 0 := by rw [hi]; rfl
  have hbl : Oprf.blind G true scratch h.input 0 r r0 b0 = .ok (0, r, enc (r.val • Spec.hashToGroup G Oprf.sha [])) := by
    have hrm : maskedVal r = r.val := maskedVal_canonical hr.1
    unfold Oprf.blind
    rw [if_neg (by simp), Oprf.hashToGroup_ok G h.input _ (Nat.zero_le _), show (0 : UInt8).toNat = 0 from rfl, List.take_zero]
    simp only [C.ok_bind, ne_eq, not_true_eq_false, if_false]
    rw [scalarmult_enc_ok _ _ (by rw [hrm]; exact smul_ne_zero hr.val_ne hH0), hrm]
    simp
  unfold main
  rw [rd_ok (by rw [hb]; simp), C.ok_bind, List.drop_zero, hb, List.take_of_length_le (by simp), toB32_toList, hxl, hbl, C.ok_bind]
  dsimp only
  rw [if_neg (by decide), differ_eq (by rw [hl]; simp) rfl, C.ok_bind, if_pos]
  rw [hright, bne_iff_ne]
  intro h'
  have := enc_injective (Vector.toList_inj.1 h')
  refine hne ?_
  have h2 := congrArg (fun x => (r.val)⁻¹ • x) this
  simp only [smul_smul, inv_mul_cancel₀ hr.val_ne, one_smul] at h2
  exact h2.symm

end

/-! ## The header -/

/-- The value of a hexadecimal digit. -/
def digit (c : Char) : Option ℕ :=
  if '0' ≤ c ∧ c ≤ '9' then some (c.toNat - 48)
  else if 'a' ≤ c ∧ c ≤ 'f' then some (c.toNat - 87)
  else if 'A' ≤ c ∧ c ≤ 'F' then some (c.toNat - 55)
  else none

/-- The number that a string of hexadecimal digits denotes. -/
def number : List Char → ℕ → Option ℕ
  | [], acc => some acc
  | c :: l, acc => (digit c).bind fun d => number l (16 * acc + d)

/-- The bytes that a string of hexadecimal digits denotes. -/
def unhex : List Char → Option (List ℕ)
  | [] => some []
  | a :: b :: l => (number [a, b] 0).bind fun x => (unhex l).map (x :: ·)
  | [_] => none

/-- The parts of a text between commas. -/
def parts : List Char → List (List Char)
  | [] => [[]]
  | c :: l => if c = ',' then [] :: parts l else (parts l).modifyHead (c :: ·)

/-- A compiler ignores spaces and line ends. -/
def spaces (c : Char) : Bool := c = ' ' || c = '\n'

/-- A literal `0x…` between spaces. -/
def literal (l : List Char) : Option ℕ :=
  match l.filter (fun c => !spaces c) with
  | '0' :: 'x' :: l => if l = [] then none else number l 0
  | _ => none

/-- The values of an initialiser. -/
def readInit (l : List Char) : Option (List ℕ) :=
  if l.all spaces then some [] else (parts l).mapM literal

theorem parts_ne (l : List Char) : parts l ≠ [] := by
  cases l with
  | nil => simp [parts]
  | cons c l =>
    unfold parts
    split
    · simp
    · have := parts_ne l
      cases h : parts l with
      | nil => exact absurd h this
      | cons a m => simp

theorem parts_comma (b : List Char) : ∀ a : List Char, parts (a ++ ',' :: b) = parts a ++ parts b
  | [] => by simp [parts]
  | c :: a => by
    rw [List.cons_append, parts, parts, parts_comma b a]
    split
    · rfl
    · cases h : parts a with
      | nil => exact absurd h (parts_ne a)
      | cons x m => simp

/-- All literals of a text. -/
def values (l : List Char) : Option (List ℕ) := (parts l).mapM literal

theorem mapM_append_some {α β : Type} (f : α → Option β) (a b : List α) (x y : List β) (ha : a.mapM f = some x)
    (hb : b.mapM f = some y) : (a ++ b).mapM f = some (x ++ y) := by
  rw [List.mapM_append, ha, hb]
  rfl

theorem values_comma {a b : List Char} {x y : List ℕ} (ha : values a = some x) (hb : values b = some y) :
    values (a ++ ',' :: b) = some (x ++ y) := by
  unfold values at *
  rw [parts_comma]
  exact mapM_append_some _ _ _ _ _ ha hb

theorem values_space {w : Char} (l : List Char) (hw : spaces w = true) : values (w :: l) = values l := by
  have hc : w ≠ ',' := by rintro rfl; cases hw
  unfold values
  rw [parts, if_neg hc]
  cases h : parts l with
  | nil => exact absurd h (parts_ne l)
  | cons a m =>
    rw [List.modifyHead_cons, List.mapM_cons, List.mapM_cons]
    have : literal (w :: a) = literal a := by
      unfold literal
      rw [List.filter_cons_of_neg (by simp [hw])]
    rw [this]

theorem values_spaces (l : List Char) : ∀ ws : List Char, (∀ w ∈ ws, spaces w = true) → values (ws ++ l) = values l
  | [], _ => rfl
  | w :: ws, h => by
    rw [List.cons_append, values_space _ (h w List.mem_cons_self),
      values_spaces l ws fun w hw => h w (List.mem_cons_of_mem _ hw)]

theorem values_joined (ws : List Char) (hws : ∀ w ∈ ws, spaces w = true) (f : List Char → List ℕ) :
    ∀ ls : List (List Char), ls ≠ [] → (∀ l ∈ ls, values l = some (f l)) →
      values (joined (',' :: ws) ls) = some ((ls.map f).flatten)
  | [], h, _ => absurd rfl h
  | [a], _, h => by
    rw [joined, h a List.mem_cons_self]
    simp
  | a :: b :: l, _, h => by
    have ih := values_joined ws hws f (b :: l) (by simp) fun x hx => h x (List.mem_cons_of_mem _ hx)
    have e : a ++ (',' :: ws) ++ joined (',' :: ws) (b :: l) = a ++ ',' :: (ws ++ joined (',' :: ws) (b :: l)) := by simp
    rw [joined, e, values_comma (h a List.mem_cons_self) ((values_spaces _ ws hws).trans ih)]
    rfl

theorem splitByN_flatten {α : Type} (n : ℕ) (hn : n ≠ 0) (v : List α) : (splitByN n v).flatten = v := by
  induction hm : v.length using Nat.strong_induction_on generalizing v with
  | _ m ih =>
    rw [splitByN]
    split
    · rename_i h
      simp [h.resolve_right hn]
    · rename_i h
      rw [not_or] at h
      have := List.length_pos_iff.2 h.1
      rw [List.flatten_cons, ih (v.drop n).length (by rw [List.length_drop]; omega) _ rfl, List.take_append_drop]

theorem splitByN_mem {α : Type} (n : ℕ) (hn : n ≠ 0) (v : List α) : ∀ x ∈ splitByN n v, x ≠ [] ∧ ∀ c ∈ x, c ∈ v := by
  induction hm : v.length using Nat.strong_induction_on generalizing v with
  | _ m ih =>
    rw [splitByN]
    split
    · simp
    · rename_i h
      rw [not_or] at h
      have hp := List.length_pos_iff.2 h.1
      intro x hx
      rw [List.mem_cons] at hx
      rcases hx with rfl | hx
      · refine ⟨?_, fun c hc => List.mem_of_mem_take hc⟩
        rw [← List.length_pos_iff, List.length_take]
        omega
      · obtain ⟨h1, h2⟩ := ih (v.drop n).length (by rw [List.length_drop]; omega) _ rfl x hx
        exact ⟨h1, fun c hc => List.mem_of_mem_drop (h2 c hc)⟩

theorem splitByN_ne {α : Type} (n : ℕ) (hn : n ≠ 0) (v : List α) (hv : v ≠ []) : splitByN n v ≠ [] := by
  rw [splitByN, dif_neg (by simp [hv, hn])]
  simp

theorem digit_space {c : Char} {d : ℕ} (h : digit c = some d) : spaces c = false ∧ c ≠ ',' := by
  constructor
  · cases hs : spaces c with
    | false => rfl
    | true =>
      unfold spaces at hs
      simp only [Bool.or_eq_true, decide_eq_true_eq] at hs
      rcases hs with rfl | rfl <;> cases h
  · rintro rfl
    cases h

theorem number_some : ∀ (l : List Char) (acc : ℕ), (∀ c ∈ l, ∃ d, digit c = some d) → ∃ x, number l acc = some x
  | [], acc, _ => ⟨acc, rfl⟩
  | c :: l, acc, h => by
    obtain ⟨d, hd⟩ := h c List.mem_cons_self
    unfold number
    rw [hd, Option.bind_some]
    exact number_some l _ fun c hc => h c (List.mem_cons_of_mem _ hc)

/-- A text without commas. -/
theorem parts_plain : ∀ l : List Char, (∀ c ∈ l, c ≠ ',') → parts l = [l]
  | [], _ => rfl
  | c :: l, h => by
    rw [parts, if_neg (h c List.mem_cons_self), parts_plain l fun c hc => h c (List.mem_cons_of_mem _ hc)]
    rfl

theorem values_literal (x : List Char) (hx : x ≠ []) (hd : ∀ c ∈ x, ∃ d, digit c = some d) :
    values (['0', 'x'] ++ x) = some [(number x 0).getD 0] := by
  obtain ⟨y, hy⟩ := number_some x 0 hd
  have hf : (['0', 'x'] ++ x).filter (fun c => !spaces c) = '0' :: 'x' :: x := by
    rw [List.filter_eq_self.2]
    · rfl
    · intro c hc
      rw [List.mem_append] at hc
      rcases hc with hc | hc
      · revert c
        decide
      · obtain ⟨d, hd⟩ := hd c hc
        rw [(digit_space hd).1]
        rfl
  have hl : literal (['0', 'x'] ++ x) = some y := by
    unfold literal
    rw [hf]
    exact (if_neg hx).trans hy
  unfold values
  rw [parts_plain]
  · rw [List.mapM_cons, hl, hy]
    rfl
  · intro c hc
    rw [List.mem_append] at hc
    rcases hc with hc | hc
    · revert c
      decide
    · obtain ⟨d, hd⟩ := hd c hc
      exact (digit_space hd).2

theorem values_toC (v : List Char) (hv : v ≠ []) (hd : ∀ c ∈ v, ∃ d, digit c = some d) :
    readInit (toC v).2 = some ((splitByN 2 v).map fun x => (number x 0).getD 0) := by
  set T := (splitByN 2 v).map fun x => ['0', 'x'] ++ x with hT
  have hTne : T ≠ [] := by rw [hT]; simpa using splitByN_ne 2 (by decide) v hv
  have h1 : ∀ t ∈ T, values t = some [(number (t.drop 2) 0).getD 0] := by
    intro t ht
    obtain ⟨x, hx, rfl⟩ := List.mem_map.1 ht
    obtain ⟨a, b⟩ := splitByN_mem 2 (by decide) v x hx
    exact values_literal x a fun c hc => hd c (b c hc)
  have h2 : ∀ l ∈ (splitByN 8 T).map (joined [',', ' ']), values l = some ((values l).getD []) := by
    intro l hl
    obtain ⟨g, hg, rfl⟩ := List.mem_map.1 hl
    obtain ⟨a, b⟩ := splitByN_mem 8 (by decide) T g hg
    rw [values_joined [' '] (by decide) _ g a fun t ht => h1 t (b t ht)]
    rfl
  have h3 : values (toC v).2 = some ((splitByN 2 v).map fun x => (number x 0).getD 0) := by
    unfold toC
    dsimp only
    rw [← hT, values_spaces _ _ (by decide), values_joined ['\n', ' ', ' ', ' '] (by decide) _ _
      (by simpa using splitByN_ne 8 (by decide) T hTne) h2, List.map_map]
    have e : (splitByN 8 T).map ((fun l => (values l).getD []) ∘ joined [',', ' ']) =
        (splitByN 8 T).map (List.map fun t => (number (t.drop 2) 0).getD 0) := by
      refine List.map_congr_left fun g hg => ?_
      obtain ⟨a, b⟩ := splitByN_mem 8 (by decide) T g hg
      rw [Function.comp_apply, values_joined [' '] (by decide) _ g a fun t ht => h1 t (b t ht), Option.getD_some]
      clear hg a b
      induction g with
      | nil => rfl
      | cons x g ih => rw [List.map_cons, List.flatten_cons, ih]; rfl
    rw [e, ← List.map_flatten, splitByN_flatten 8 (by decide), hT, List.map_map]
    rfl
  unfold readInit
  rw [if_neg]
  · exact h3
  · intro hall
    -- a text of spaces has one part, which is no literal
    have hsp : ∀ c ∈ (toC v).2, spaces c = true := List.all_eq_true.1 hall
    have := values_spaces [] (toC v).2 hsp
    rw [List.append_nil, h3] at this
    cases this

/-- **C97, the header.** For every string of hexadecimal digits of even length that is not empty: the text that
`testvecs2h.py` writes declares as many elements as there are bytes, and a compiler reads the bytes from it. -/
theorem C97_header_partial (v : List Char) (bs : List ℕ) (hv : v ≠ []) (h : unhex v = some bs) :
    (toC v).1 = bs.length ∧ readInit (toC v).2 = some bs := by
  have key : ∀ (v : List Char) (bs : List ℕ), unhex v = some bs → (∀ c ∈ v, ∃ d, digit c = some d) ∧
      v.length = 2 * bs.length ∧ (splitByN 2 v).map (fun x => (number x 0).getD 0) = bs := by
    intro v
    induction v using unhex.induct with
    | case1 =>
      intro bs h
      cases h
      exact ⟨by simp, rfl, by rw [splitByN]; rfl⟩
    | case2 a b l ih =>
      intro bs h
      unfold unhex at h
      rw [Option.bind_eq_some_iff] at h
      obtain ⟨x, hx, h⟩ := h
      rw [Option.map_eq_some_iff] at h
      obtain ⟨m, hm, rfl⟩ := h
      obtain ⟨i1, i2, i3⟩ := ih m hm
      have hx' := hx
      unfold number at hx'
      rw [Option.bind_eq_some_iff] at hx'
      obtain ⟨da, hda, hx'⟩ := hx'
      unfold number at hx'
      rw [Option.bind_eq_some_iff] at hx'
      obtain ⟨db, hdb, -⟩ := hx'
      refine ⟨?_, by simp [i2]; ring, ?_⟩
      · intro c hc
        rw [List.mem_cons, List.mem_cons] at hc
        rcases hc with rfl | rfl | hc
        · exact ⟨_, hda⟩
        · exact ⟨_, hdb⟩
        · exact i1 c hc
      · rw [splitByN, dif_neg (by simp)]
        show (number [a, b] 0).getD 0 :: (splitByN 2 l).map _ = _
        rw [hx, i3]
        rfl
    | case3 a =>
      intro bs h
      cases h
  obtain ⟨h1, h2, h3⟩ := key v bs h
  refine ⟨?_, ?_⟩
  · show v.length / 2 = _
    omega
  · rw [values_toC v hv h1, h3]

/-- **C97, negation: a string of odd length.** The text has one element more than the array that it declares, which is a
constraint violation in C. -/
theorem C97_odd_violated (v : List Char) (hv : v.length % 2 = 1) (hd : ∀ c ∈ v, ∃ d, digit c = some d) :
    ∃ bs, readInit (toC v).2 = some bs ∧ bs.length = (toC v).1 + 1 := by
  refine ⟨_, values_toC v (by rintro rfl; cases hv) hd, ?_⟩
  rw [List.length_map]
  show _ = v.length / 2 + 1
  clear hd
  induction hm : v.length using Nat.strong_induction_on generalizing v with
  | _ m ih =>
    rw [splitByN, dif_neg (by
      rintro (rfl | h)
      · exact absurd hv (by decide)
      · exact absurd h (by decide))]
    rw [List.length_cons]
    by_cases h1 : m = 1
    · rw [splitByN, dif_pos (.inl (List.length_eq_zero_iff.1 (by rw [List.length_drop]; omega)))]
      simp [h1]
    · have := ih (v.drop 2).length (by rw [List.length_drop]; omega) (v.drop 2) (by rw [List.length_drop]; omega) rfl
      rw [this, List.length_drop]
      omega

/-- The beginning of a vector. -/
example : unhex ['6', '4', 'd', '3'] = some [0x64, 0xd3] := by decide

example : ∀ c ∈ ['6', '4', 'd'], ∃ d, digit c = some d := by
  intro c hc
  rw [← Option.isSome_iff_exists]
  revert c
  decide

section Toy
attribute [local instance] Ristretto.toy Toy.hashes

/-- A vector that meets the hypotheses: the key and the blinding scalar are 1. -/
example : ∃ h : Header, ∃ k r : B32, Sized h k r ∧ maskedVal k ≠ 0 ∧ RandomScalar r ∧
    Spec.hashToGroup (ZMod L) Oprf.sha h.input ≠ 0 := by
  have h1 : RandomScalar (B32.ofZ ((1 : ℕ) : ZMod L)) := Toy.randomScalar _ (by norm_num) (by norm_num)
  refine ⟨⟨[0], (B32.ofZ ((1 : ℕ) : ZMod L)).toList, List.replicate 32 0, List.replicate 32 0, List.replicate 64 0,
    (B32.ofZ ((1 : ℕ) : ZMod L)).toList⟩, _, _, ⟨by decide, rfl, rfl, by simp, by simp, by simp⟩, ?_, h1, Toy.hashToGroup_ne _⟩
  rw [maskedVal_canonical h1.1]
  exact h1.val_ne

end Toy

section Sum
attribute [local instance] Ristretto.toy

/-- A hash function whose result depends on all of its input. -/
@[reducible] def sumHash : Hashes where
  sha512 x := Vector.ofFn fun i => if i.1 = 0 then x.sum else 0
  generichash64 _ := Vector.replicate 64 0
  generichash32 _ := zero32

attribute [local instance] sumHash

/-- An input that meets the hypotheses of `C97_long_input_violated`: `1, 0, ..., 0`, with the blinding scalar 1. -/
example : ∃ (h : Header) (r : B32), h.input.length = 256 ∧ h.blind = r.toList ∧ RandomScalar r ∧
    Spec.hashToGroup (ZMod L) Oprf.sha [] ≠ 0 ∧
    Spec.hashToGroup (ZMod L) Oprf.sha h.input ≠ Spec.hashToGroup (ZMod L) Oprf.sha [] :=
  ⟨⟨1 :: List.replicate 255 0, (B32.ofNat 1).toList, [], [], [], []⟩, B32.ofNat 1,
    by rw [List.length_cons, List.length_replicate], rfl, by unfold RandomScalar B32.Canonical; decide +kernel,
    by decide +kernel, by decide +kernel⟩

end Sum

end Verif.Props
