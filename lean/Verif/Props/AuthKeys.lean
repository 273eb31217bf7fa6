import Verif.Proofs.AuthKeys
import Verif.Proofs.Noise

/-!
# Property of the file of authorised keys: C90
-/

set_option linter.unusedSectionVars false

namespace Verif.Props

open Noise Noise.Mem Noise.Auth
open Spec.Device Spec.AuthKeys

section
variable [NoiseCrypto]

/-- C90: if the peers of the file can all be registered, loading the file registers them one after the other, and does
nothing else. -/
theorem C90_same (grow : ℕ → ℕ) {dvp : ℕ} {es : List Spec.AuthKeys.Entry} (hp : ∀ e ∈ es, Plain e.2) {h h2 : Heap} {outs : List Out}
    (e : calls dvp (adds es) h = .ok (outs, h2)) (ho : Out.added none ∉ outs) :
    loadAuthkeys grow dvp (some (file es)) h = .ok (0, h2) := by
  obtain ⟨buf', e1⟩ := loadLines_entries grow dvp [] es hp h h2 outs e ho []
  have hl := lines_file es hp []
  rw [List.append_nil] at hl
  rw [loadAuthkeys, run_bind, hl, show lines [] = [] from rfl, e1]
  rfl

/-- C90, loaded: from a file with different keys every peer is registered with the key and the name of its line, and the
device then answers every call as one with these peers.

Partial: every line of the file must have the form that is expected (see the theorems below). -/
theorem C90_loads_partial {h0 : Heap} (hk : HeapOk h0) (prlg : Bytes) (name : Option Bytes) (sk spriv : B32) (grow : ℕ → ℕ)
    {es : List Spec.AuthKeys.Entry} (hp : ∀ e ∈ es, Plain e.2) (hd : (es.map (·.1)).Nodup) (hl : es.length < 4294967295) (ops : List Op) :
    let d := ((fresh name sk spriv).run (adds es)).2
    d.peers.map (fun p => (p.key, p.name)) = es.reverse ∧
    ∃ dvp h1 h2 h3, create prlg name sk spriv h0 = .ok (dvp, h1) ∧
      loadAuthkeys grow dvp (some (file es)) h1 = .ok (0, h2) ∧ calls dvp ops h2 = .ok ((d.run ops).1, h3) := by
  intro d
  obtain ⟨dvp, h1, e1, hn, r, istr, hr, -⟩ := (Sep.init hk).create prlg name sk spriv
  obtain ⟨h2, e2, s2⟩ := Represents.calls (adds es) (h := h1) (d := fresh name sk spriv) ⟨r, istr, [], hr, rfl⟩
  obtain ⟨h3, e3, -⟩ := Represents.calls ops s2
  obtain ⟨ho, hpe⟩ := run_adds es (fresh name sk spriv) (fun e he => (hp e he).2) hd (by simp [fresh])
    (by show 1 + es.length ≤ _; omega)
  refine ⟨?_, dvp, h1, h2, h3, e1, C90_same grow hp e2 ho, e3⟩
  rw [hpe]
  simp [fresh]

/-- C90, nothing else: whatever the file contains, each key that is registered stands in base64 at the beginning of a line. -/
theorem C90_only {h0 : Heap} (hk : HeapOk h0) (prlg : Bytes) (name : Option Bytes) (sk spriv : B32) (grow : ℕ → ℕ)
    (content : Bytes) {dvp : ℕ} {h1 h2 : Heap} {r : Int} (e1 : create prlg name sk spriv h0 = .ok (dvp, h1))
    (e2 : loadAuthkeys grow dvp (some content) h1 = .ok (r, h2)) :
    ∃ es outs, calls dvp (adds es) h1 = .ok (outs, h2) ∧
      ∀ e ∈ es, ∃ a b, content = a ++ chars e.1 ++ b ∧ (a = [] ∨ a.getLast? = some 10) := by
  obtain ⟨dvp', h1', e1', hn, rr, istr, hr, -⟩ := (Sep.init hk).create prlg name sk spriv
  obtain ⟨rfl, rfl⟩ : dvp' = dvp ∧ h1' = h1 := by
    rw [e1] at e1'; injection e1' with e; injection e with a b; exact ⟨a.symm, b.symm⟩
  rw [loadAuthkeys, run_bind] at e2
  obtain ⟨⟨u, h3⟩, e3, e4⟩ := C.bind_eq_ok.mp e2
  rw [run_pure] at e4
  cases e4
  obtain ⟨es, outs, e5, h5⟩ := loadLines_only grow (lines content) [] _ _ (fresh name sk spriv) ⟨rr, istr, [], hr, rfl⟩ e3
  refine ⟨es, outs, e5, fun e he => ?_⟩
  obtain ⟨l, hl, ht⟩ := h5 e he
  obtain ⟨a, b, hc, ha⟩ := mem_lines hl
  refine ⟨a, l.drop 43 ++ b, ?_, ha⟩
  rw [← ht, hc]
  simp only [List.append_assoc]
  rw [← List.append_assoc (l.take 43), List.take_append_drop]

/-- C90, memory: a file whose lines all have a newline and are either no keys or complete is read without undefined
behaviour.

Partial: this should hold for every file (see `C90_uninit_violated` and `C90_nameless_violated`). -/
theorem C90_safe_partial {h0 : Heap} (hk : HeapOk h0) (prlg : Bytes) (name : Option Bytes) (sk spriv : B32) (grow : ℕ → ℕ)
    {ls : List Bytes} (hls : ∀ l ∈ ls, 10 ∉ l ∧ Complete l) :
    ∃ dvp h1 h2, create prlg name sk spriv h0 = .ok (dvp, h1) ∧
      loadAuthkeys grow dvp (some (ls.map (· ++ [10])).flatten) h1 = .ok (0, h2) := by
  obtain ⟨dvp, h1, e1, hn, r, istr, hr, -⟩ := (Sep.init hk).create prlg name sk spriv
  obtain ⟨h2, e2⟩ := loadLines_safe grow ls (fun l hl => (hls l hl).2) [] h1 (fresh name sk spriv) ⟨r, istr, [], hr, rfl⟩
  have hl : lines (ls.map (· ++ [10])).flatten = ls.map (· ++ [10]) := by
    clear e2
    induction ls with
    | nil => rfl
    | cons l ls ih =>
      have : ((l :: ls).map (· ++ [10])).flatten = l ++ 10 :: (ls.map (· ++ [10])).flatten := by simp
      rw [this, lines_line _ _ (hls l (by simp)).1, ih fun l hl => hls l (by simp [hl])]
      rfl
  refine ⟨dvp, h1, h2, e1, ?_⟩
  rw [loadAuthkeys, run_bind, hl, e2]
  rfl

/-- C90, errors: a line that is not accepted ends the loading. The peers of all further lines are missing, and the result
is 0 as if all were well. -/
theorem C90_rest_ignored_violated (grow : ℕ → ℕ) (dvp : ℕ) {es : List Spec.AuthKeys.Entry} (hp : ∀ e ∈ es, Plain e.2) {bad : Bytes}
    (h10 : 10 ∉ bad) (h32 : 32 ∈ bad.take 44) (rest : Bytes) :
    loadAuthkeys grow dvp (some (file es ++ (bad ++ 10 :: rest))) = loadAuthkeys grow dvp (some (file es)) := by
  have hl := lines_file es hp []
  rw [List.append_nil] at hl
  rw [loadAuthkeys, loadAuthkeys, lines_file es hp, hl, lines_line _ _ h10]
  have : 32 ∈ (bad ++ [10]).take 44 := by rw [List.take_append]; exact List.mem_append_left _ h32
  rw [loadLines_prefix grow dvp _ (lines []) (fun buf => loadLines_blank grow dvp this _ buf) es hp]

/-- C90, result: no content of the file makes the function report an error; only a file that cannot be opened does. -/
theorem C90_result_violated (grow : ℕ → ℕ) (dvp : ℕ) (content : Bytes) {h h2 : Heap} {r : Int}
    (e : loadAuthkeys grow dvp (some content) h = .ok (r, h2)) : r = 0 := by
  rw [loadAuthkeys, run_bind] at e
  obtain ⟨⟨u, h3⟩, e3, e4⟩ := C.bind_eq_ok.mp e
  rw [run_pure] at e4
  cases e4
  rfl

/-- C90, part of a key: characters after the first one that is not in the alphabet are ignored. If what stands before it
decodes (for instance in a key in the alphabet of RFC 4648 section 5, with `-` or `_` after a multiple of four characters), the
rest of the key is indeterminate memory. -/
theorem C90_uninit_violated (grow : ℕ → ℕ) (dvp : ℕ) {p q name : Bytes} (hp : ∀ c ∈ p, c ∈ alphabet) (h4 : 4 ∣ p.length)
    (h43 : p.length < 43) (hq : ∀ c ∈ q.head?, c ∉ alphabet) (h44 : p.length + q.length = 44) (hb : 32 ∉ q) (h10 : 10 ∉ q)
    (hn : 10 ∉ name) (rest : Bytes) (h : Heap) :
    loadAuthkeys grow dvp (some (p ++ q ++ 32 :: name ++ 10 :: rest)) h = .ub .uninit := by
  have hp' : ∀ c ∈ p, InAlphabet c := fun c hc => mem_alphabet.mp (hp c hc)
  have h10' : 10 ∉ p ++ q ++ 32 :: name := by
    simp only [List.mem_append, List.mem_cons, not_or]
    refine ⟨⟨fun hc => ?_, h10⟩, by decide, hn⟩
    obtain ⟨d, hd⟩ := hp' _ hc
    exact (charToByte_some hd).2.2.2 rfl
  rw [loadAuthkeys, run_bind, lines_line _ _ h10',
    loadLines_part grow dvp hp' h4 h43 (fun c hc hi => hq c hc (mem_alphabet.mpr hi)) h44 hb]
  rfl

/-- C90, last line: if the last line has no newline, the name loses its last character. -/
theorem C90_cut_violated (grow : ℕ → ℕ) (dvp : ℕ) {es : List Spec.AuthKeys.Entry} (hp : ∀ e ∈ es, Plain e.2) (key : B32) {name : Bytes}
    {c : UInt8} (hn : Plain (name ++ [c])) :
    loadAuthkeys grow dvp (some (file es ++ (chars key ++ [61, 32] ++ (name ++ [c])))) =
      loadAuthkeys grow dvp (some (file (es ++ [(key, name)]))) := by
  have hn' : Plain name := ⟨fun h => hn.1 (by simp [h]), fun h => hn.2 (by simp [h])⟩
  have hf : file (es ++ [(key, name)]) = file es ++ (chars key ++ [61, 32] ++ name ++ [10]) := by simp [file, line]
  have h10 : 10 ∉ chars key ++ [61, 32] := by
    rw [List.mem_append, not_or]
    exact ⟨not_mem_chars (by decide), by decide⟩
  rw [hf, loadAuthkeys, loadAuthkeys, lines_file es hp, lines_file es hp]
  have e1 : lines (chars key ++ [61, 32] ++ (name ++ [c])) = [chars key ++ [61, 32] ++ name ++ [c]] := by
    rw [lines_last _ (by rw [List.mem_append, not_or]; exact ⟨h10, hn.1⟩) (by simp), List.append_assoc _ name]
  have e2 : lines (chars key ++ [61, 32] ++ name ++ [10]) = [chars key ++ [61, 32] ++ name ++ [10]] := by
    rw [lines_line [] _ (by rw [List.mem_append, not_or]; exact ⟨h10, hn'.1⟩)]
    rfl
  rw [e1, e2, loadLines_prefix grow dvp _ [chars key ++ [61, 32] ++ name ++ [10]] (fun buf => ?_) es hp]
  obtain ⟨X, eX⟩ := loadLines_key grow dvp key (p := 61) (c := c) (by decide) (by decide) hn'.2 buf
  obtain ⟨Y, eY⟩ := loadLines_key grow dvp key (p := 61) (c := 10) (by decide) (by decide) hn'.2 buf
  rw [eX, eY]
  rfl

/-- C90, no name: a line with a key and no name registers the key under the name of the line before it. -/
theorem C90_previous_name_violated (grow : ℕ → ℕ) (dvp : ℕ) {es : List Spec.AuthKeys.Entry} (hp : ∀ e ∈ es, Plain e.2) (k1 k2 : B32)
    {name : Bytes} (hn : Plain name) :
    loadAuthkeys grow dvp (some (file es ++ (line (k1, name) ++ (chars k2 ++ [10])))) =
      loadAuthkeys grow dvp (some (file (es ++ [(k1, name), (k2, name)]))) := by
  have hp1 : ∀ e ∈ es ++ [(k1, name)], Plain e.2 := by
    intro e he
    rcases List.mem_append.mp he with he | he
    · exact hp e he
    · rw [List.mem_singleton] at he; rw [he]; exact hn
  have hf1 : file es ++ (line (k1, name) ++ (chars k2 ++ [10])) = file es ++ (file [(k1, name)] ++ (chars k2 ++ [10])) := by
    simp [file]
  have hf2 : file (es ++ [(k1, name), (k2, name)]) = file es ++ (file [(k1, name)] ++ file [(k2, name)]) := by simp [file]
  have hp2 : ∀ (k : B32), ∀ e ∈ [(k, name)], Plain e.2 := by
    intro k e he; rw [List.mem_singleton] at he; rw [he]; exact hn
  have hlast := lines_file [(k2, name)] (hp2 k2) []
  rw [List.append_nil] at hlast
  have h10 : (10 : UInt8) ∉ chars k2 := not_mem_chars (by decide)
  rw [hf1, hf2, loadAuthkeys, loadAuthkeys, lines_file es hp, lines_file es hp, lines_file _ (hp2 k1), lines_file _ (hp2 k1),
    hlast, lines_line [] _ h10]
  rw [loadLines_prefix grow dvp _ ([(k1, name)].map line ++ ([(k2, name)].map line ++ lines [])) (fun buf => ?_) es hp]
  show loadLines grow dvp ((chars k1 ++ [61, 32] ++ name ++ [10]) :: [chars k2 ++ [10]]) buf =
    loadLines grow dvp ((chars k1 ++ [61, 32] ++ name ++ [10]) :: [chars k2 ++ [61, 32] ++ name ++ [10]]) buf
  obtain ⟨X, eX⟩ := loadLines_key grow dvp k1 (p := 61) (c := 10) (by decide) (by decide) hn.2 buf
  rw [eX, eX]
  congr 1
  funext pp
  congr 1
  funext h
  obtain ⟨b1, e1⟩ := (loadLines_nameless grow dvp k2 ((chars k1 ++ [61, 32]).map some ++ (name.map some ++ some 0 :: some 0 :: X))
    h []).1 _ _ rfl (by simp [chars_length]) name (cstring_name hn.2 _)
  obtain ⟨Y, eY⟩ := loadLines_key grow dvp k2 (p := 61) (c := 10) (by decide) (by decide) hn.2
    ((chars k1 ++ [61, 32]).map some ++ (name.map some ++ some 0 :: some 0 :: X))
  rw [e1, eY]
  rfl

/-- C90, no name: if there is no line before it, memory outside the line or indeterminate memory is read as the name. -/
theorem C90_nameless_violated (grow : ℕ → ℕ) (dvp : ℕ) (key : B32) (rest : Bytes) (h : Heap) :
    ∃ r, loadAuthkeys grow dvp (some (chars key ++ 10 :: rest)) h = .ub r := by
  obtain ⟨r, e⟩ := (loadLines_nameless grow dvp key [] h (lines rest)).2 rfl
  refine ⟨r, ?_⟩
  rw [loadAuthkeys, run_bind, lines_line _ _ (not_mem_chars (by decide)), e]
  rfl

end

/-! ### Examples -/

section examples

attribute [local instance] Toy.noise

private def heap0 : Heap := ⟨fun _ => none, 1, []⟩
private def key (n : UInt8) : B32 := Vector.replicate 32 n
private def alice : Bytes := [97, 108, 105, 99, 101]
private def bob : Bytes := [98, 111, 98]
private def two : List Spec.AuthKeys.Entry := [(key 5, alice), (key 6, bob)]

/-- The encoding of 32 times the byte 5: `BQUF...BQU`. -/
example : chars (key 5) = ((List.replicate 10 [66, 81, 85, 70]).flatten ++ [66, 81, 85] : Bytes) := by decide +kernel

example : ∀ e ∈ two, Plain e.2 := by decide +kernel
example : (two.map (·.1)).Nodup := by decide +kernel

/-- Loading the two peers: bob's, which is the last line, has number 2. -/
example : ∃ dvp h1 h2 h3, create [1] none (key 1) (key 2) heap0 = .ok (dvp, h1) ∧
    loadAuthkeys (fun _ => 75) dvp (some (file two)) h1 = .ok (0, h2) ∧
    calls dvp [.byKey (key 6)] h2 = .ok ([.entry (some ⟨2, bob, key 6⟩)], h3) := by
  obtain ⟨-, dvp, h1, h2, h3, e1, e2, e3⟩ := C90_loads_partial (h0 := heap0) ⟨by decide, fun _ _ => rfl⟩ [1] none (key 1) (key 2)
    (fun _ => 75) (es := two) (by decide +kernel) (by decide +kernel) (by decide) [.byKey (key 6)]
  have e : (((fresh none (key 1) (key 2)).run (adds two)).2.run [Op.byKey (key 6)]).1 = [.entry (some ⟨2, bob, key 6⟩)] := by
    decide +kernel
  rw [e] at e3
  exact ⟨dvp, h1, h2, h3, e1, e2, e3⟩

/-- A file with a comment, a short line and a key. -/
example : ∀ l ∈ ([[35, 32, 107], [], chars (key 5) ++ [61, 32] ++ alice] : List Bytes), 10 ∉ l ∧ Complete l := by
  decide +kernel

/-- A comment ends the loading. -/
example : (10 : UInt8) ∉ ([35, 32, 107] : Bytes) ∧ (32 : UInt8) ∈ ([35, 32, 107] : Bytes).take 44 := by decide

/-- A key with `-` as its fifth character. -/
example (h : Heap) : loadAuthkeys (fun _ => 75) 7 (some ((chars (key 5)).take 4 ++ (45 :: (chars (key 5)).drop 5 ++ [61]) ++
    32 :: bob ++ 10 :: file two)) h = .ub .uninit :=
  C90_uninit_violated _ _ (by decide +kernel) (by decide +kernel) (by decide +kernel) (by decide +kernel) (by decide +kernel)
    (by decide +kernel) (by decide +kernel) (by decide +kernel) _ _

end examples

end Verif.Props
