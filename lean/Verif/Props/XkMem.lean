import Verif.Proofs.XkMem
import Verif.Props.AuthKeys
import Verif.Props.XkExample

/-!
# Properties of the example of the Noise library on the heap: C106
-/

set_option linter.unusedSectionVars false

namespace Verif.Props

open Noise Noise.Example Noise.Mem NoiseCrypto
open Noise.Auth (lines loadAuthkeys)
open Spec.AuthKeys
open Spec.Device (HeapOk)
open Spec.SessionMem (World)

section
variable [Hashes] [NoiseCrypto] {h0 : Heap}

/-- The run with a file of peers. -/
theorem main_file (hk : HeapOk h0) (grow : ℕ → ℕ) (a b ea eb : B32) {es : List Entry} (hp : ∀ e ∈ es, Plain e.2)
    (hd : (es.map (·.1)).Nodup) (hl : es.length < 4294967295) :
    ∃ r h L' d, mainAt grow a b ea eb (some (file es)) h0 = .ok (r, h) ∧ Sep h0 h L' ∧ Ends a b d r L' ∧
      d.spriv = b ∧ d.peers.map (fun p => (p.key, p.name)) = es.reverse := by
  obtain ⟨da, h1, pb, h2, db, h3, BA, e1, e2, hpb, eid, e3, hdb, hA, s3⟩ := main_start hk a b
  obtain ⟨h4, e4, -⟩ := Represents.calls (adds es) s3
  obtain ⟨ho, hpe⟩ := Noise.Auth.run_adds es (Spec.Device.fresh (some nameBob) srlzKey b) (fun e he => (hp e he).2) hd
    (by simp [Spec.Device.fresh]) (by show 1 + es.length ≤ _; omega)
  obtain ⟨r, h, L', e, hs, q⟩ := main_loaded ea eb e1 e2 hpb eid e3 hdb hA s3 e4 (C90_same grow hp e4 ho)
  exact ⟨r, h, L', _, e, hs, q, (run_keys (Spec.Device.fresh (some nameBob) srlzKey b) (adds es)).2,
    by rw [hpe]; simp [Spec.Device.fresh]⟩

theorem keys_of {d : Spec.Device.Dev} {es : List Entry} (h : d.peers.map (fun p => (p.key, p.name)) = es.reverse) (k : B32) :
    k ∈ d.peers.map (·.key) ↔ k ∈ es.map (·.1) := by
  have : d.peers.map (·.key) = (es.reverse).map (·.1) := by rw [← h, List.map_map]; rfl
  rw [this, List.map_reverse, List.mem_reverse]

/-- C106, accepted: with Alice's key in the file, `main` on any heap ends as the program on values does. It touches no memory
that was there before. What is left are the two keys for storage and, for Bob's record at Alice and for every line of the
file, the record, the key, the information and a name that is not empty.

Partial: nothing should be left, and the lines of the file must have the form that is expected. -/
theorem C106_accepted_partial (hk : HeapOk h0) (grow : ℕ → ℕ) (a b ea eb : B32) {es : List Entry} (hp : ∀ e ∈ es, Plain e.2)
    (hd : (es.map (·.1)).Nodup) (hl : es.length < 4294967295) (hm : xbase a ∈ es.map (·.1)) :
    ∃ r h, mainAt grow a b ea eb (some (file es)) h0 = .ok (r, h) ∧ r.code = 0 ∧
      main grow a b ea eb (some (file es)) = .ok r ∧ (∀ x < h0.next, h.mem x = h0.mem x) ∧
      ∃ left : List ℕ, left.Nodup ∧ (∀ x, h0.next ≤ x → (h.mem x ≠ none ↔ x ∈ left)) ∧
        left.length = 2 + 4 + (es.map fun e => if e.2 = [] then 3 else 4).sum := by
  obtain ⟨r, h, L', d, e, hs, q, -, hpe⟩ := main_file hk grow a b ea eb hp hd hl
  rcases q with ⟨-, rfl, hc⟩ | ⟨hn, -⟩
  · refine ⟨_, h, e, rfl, ?_, fun x hx => hs.below hx, ?_⟩
    · obtain ⟨dv, h1, buf, h2⟩ := load_entries grow es hp [] (deviceCreate prologue b) hd (by simp [deviceCreate])
        (show 1 + es.length ≤ _ by omega)
      have hf := Noise.Auth.lines_file es hp []
      rw [List.append_nil] at hf
      refine (example_main (dv := dv) ?_).1 ((h1 _).mpr (Or.inl hm))
      rw [hf, show lines [] = [] from rfl, h2]
      rfl
    · obtain ⟨l, hl', hm', hc'⟩ := hs.addresses
      refine ⟨l, hl', hm', ?_⟩
      rw [hc', hc]
      have : (d.peers.map fun e => if e.name = [] then 3 else 4) = (es.map fun e => if e.2 = [] then 3 else 4).reverse := by
        rw [← List.map_reverse, ← hpe, List.map_map]
        rfl
      rw [Spec.Device.peerBlocks, this, List.sum_reverse]
  · exact absurd ((keys_of hpe _).mpr hm) hn

/-- C106, refused: without Alice's key in the file `main` on any heap ends as the program on values does, without touching
memory that was there before. -/
theorem C106_refused (hk : HeapOk h0) (grow : ℕ → ℕ) (a b ea eb : B32) {es : List Entry} (hp : ∀ e ∈ es, Plain e.2)
    (hd : (es.map (·.1)).Nodup) (hl : es.length < 4294967295) (hm : xbase a ∉ es.map (·.1)) :
    ∃ r h, mainAt grow a b ea eb (some (file es)) h0 = .ok (r, h) ∧ r.code = 1 ∧
      main grow a b ea eb (some (file es)) = .ok r ∧ ∀ x < h0.next, h.mem x = h0.mem x := by
  obtain ⟨r, h, L', d, e, hs, q, -, hpe⟩ := main_file hk grow a b ea eb hp hd hl
  rcases q with ⟨hn, -⟩ | ⟨-, rfl, -⟩
  · exact absurd ((keys_of hpe _).mp hn) hm
  · exact ⟨_, h, e, rfl, C103_rejected grow a b ea eb hp hd hl hm, fun x hx => hs.below hx⟩

/-- The run with any file that can be loaded. -/
theorem main_any (hk : HeapOk h0) (grow : ℕ → ℕ) (a b ea eb : B32) (content : Bytes) :
    (∃ u db h3, mainAt grow a b ea eb (some content) h0 = .ub u ∧ loadAuthkeys grow db (some content) h3 = .ub u) ∨
    ∃ r h L' d, mainAt grow a b ea eb (some content) h0 = .ok (r, h) ∧ Sep h0 h L' ∧ Ends a b d r L' ∧ d.spriv = b ∧
      (∃ db h3 h4, loadAuthkeys grow db (some content) h3 = .ok (0, h4)) ∧
      ∀ k ∈ d.peers.map (·.key), ∃ x y, content = x ++ chars k ++ y ∧ (x = [] ∨ x.getLast? = some 10) := by
  obtain ⟨da, h1, pb, h2, db, h3, BA, e1, e2, hpb, eid, e3, hdb, hA, s3⟩ := main_start hk a b
  cases e5 : loadAuthkeys grow db (some content) h3 with
  | ub u =>
    refine .inl ⟨u, db, h3, ?_, e5⟩
    rw [mainAt, run_bind, e1, C.ok_bind]
    simp only
    rw [run_bind, e2, C.ok_bind]
    simp only
    rw [if_neg hpb, run_bind, eid, C.ok_bind]
    simp only
    rw [run_bind, e3, C.ok_bind]
    simp only
    rw [run_bind, e5]
    rfl
  | ok x =>
    obtain ⟨ret, h4⟩ := x
    right
    have e5' := e5
    rw [loadAuthkeys, run_bind] at e5'
    obtain ⟨⟨u, h4'⟩, e6, e7⟩ := C.bind_eq_ok.mp e5'
    rw [run_pure] at e7
    cases e7
    obtain ⟨es, outs, e4, h5⟩ := Noise.Auth.loadLines_only grow (lines content) [] _ _ _ s3 e6
    obtain ⟨r, h, L', e, hs, q⟩ := main_loaded ea eb e1 e2 hpb eid e3 hdb hA s3 e4 e5
    refine ⟨r, h, L', _, e, hs, q, (run_keys (Spec.Device.fresh (some nameBob) srlzKey b) (adds es)).2, ⟨db, h3, _, e5⟩,
      fun k hk' => ?_⟩
    obtain ⟨x, hx, rfl⟩ : ∃ x ∈ es, x.1 = k := by
      rcases run_adds_keys es _ k hk' with h | h
      · simpa using h
      · simp [Spec.Device.fresh] at h
    obtain ⟨l, hl, ht⟩ := h5 x hx
    obtain ⟨p, s, hc, hp⟩ := Noise.Auth.mem_lines hl
    refine ⟨p, l.drop 43 ++ s, ?_, hp⟩
    rw [← ht, hc]
    simp only [List.append_assoc]
    rw [← List.append_assoc (l.take 43), List.take_append_drop]

/-- C106, same result: for every file, every heap and all keys, `main` on the heap and the program on values have the same
result: the same return value, output and texts, or undefined behaviour of the same kind. -/
theorem C106_same (hk : HeapOk h0) (grow : ℕ → ℕ) (a b ea eb : B32) (content : Option Bytes) :
    (mainAt grow a b ea eb content h0 >>= fun x => .ok x.1) = main grow a b ea eb content := by
  obtain ⟨da, h1, pb, h2, db, h3, BA, e1, e2, hpb, eid, e3, hdb, hA, s3⟩ := main_start hk a b
  have start : ∀ c, mainAt grow a b ea eb c h0 = (loadAuthkeys grow db c >>= fun ret =>
      if ret ≠ 0 then pure { code := 1 } else sessionsAt da db 1 ea eb : M Res) h3 := by
    intro c
    rw [mainAt, run_bind, e1, C.ok_bind]
    simp only
    rw [run_bind, e2, C.ok_bind]
    simp only
    rw [if_neg hpb, run_bind, eid, C.ok_bind]
    simp only
    rw [run_bind, e3, C.ok_bind]
    rfl
  cases content with
  | none =>
    rw [start]
    rfl
  | some content =>
    have hl := loadLines_load 1 grow (lines content) [] h3 _ s3
    rw [show World.device ⟨Spec.Device.fresh (some nameBob) srlzKey b, prologue, 1, []⟩ = deviceCreate prologue b from rfl] at hl
    cases e : load grow (lines content) [] (deviceCreate prologue b) with
    | ub u =>
      rw [e] at hl
      have hl : Noise.Auth.loadLines grow db (lines content) [] h3 = .ub u := hl
      rw [start, run_bind, loadAuthkeys, run_bind, hl, main, show deviceAddPeer (deviceCreate prologue a) (xbase b) =
        (some 1, ⟨a, xbase a, prologue, 1, [⟨1, xbase b⟩], 2⟩) from rfl]
      simp only [e, C.ub_bind]
    | ok dv =>
      rw [e] at hl
      obtain ⟨d, h4, e4, s4, hdv, hsp⟩ := hl
      obtain ⟨g, -⟩ := load_good grow _ _ _ _ (good_create b) e
      have e5 : loadAuthkeys grow db (some content) h3 = .ok (0, h4) := by
        rw [loadAuthkeys, run_bind, e4]
        rfl
      obtain ⟨r, h, L', em, -, q⟩ := main_after ea eb e1 e2 hpb eid e3 hdb hA hsp (hdv ▸ g) s4 e5
      have hkeys : dv.peers.map (·.s) = d.peers.map (·.key) := by
        rw [← hdv]
        simp [Spec.SessionMem.World.device]
      obtain ⟨m1, m2⟩ := example_main (a := a) (ea := ea) (eb := eb) e
      rw [hkeys] at m1 m2
      rw [em, C.ok_bind]
      rcases q with ⟨hm, rfl, -⟩ | ⟨hm, rfl, -⟩
      · rw [m1 hm]
      · rw [m2 hm]

/-- C106, any file: whatever the file contains and however the heap looks, `main` touches no memory that was there before. It
accepts Alice only if her key stands in base64 at the beginning of a line. -/
theorem C106_any_file (hk : HeapOk h0) (grow : ℕ → ℕ) (a b ea eb : B32) (content : Bytes) {r : Res} {h : Heap}
    (e : mainAt grow a b ea eb (some content) h0 = .ok (r, h)) :
    (∀ x < h0.next, h.mem x = h0.mem x) ∧
    ((r.code = 0 ∧ r.peerKey = some (xbase a) ∧ r.printed = some helloBob ∧
      ∃ x y, content = x ++ chars (xbase a) ++ y ∧ (x = [] ∨ x.getLast? = some 10)) ∨
    (r.code = 1 ∧ r.error = some "Receive message 2" ∧ r.peerKey = none ∧ r.printed = none ∧ r.received = none)) := by
  rcases main_any hk grow a b ea eb content with ⟨u, _, _, e', -⟩ | ⟨r', h', L', d, e', hs, q, -, -, hd⟩
  · rw [e'] at e
    cases e
  · rw [e'] at e
    cases e
    refine ⟨fun x hx => hs.below hx, ?_⟩
    rcases q with ⟨hm, rfl, -⟩ | ⟨-, rfl, -⟩
    · exact .inl ⟨rfl, rfl, rfl, hd _ hm⟩
    · exact .inr ⟨rfl, rfl, rfl, rfl, rfl⟩

/-- C106, undefined behaviour: the only step of `main` that can have undefined behaviour is the loading of the file. The
handshake, the messages and the releases never have any. -/
theorem C106_undefined (hk : HeapOk h0) (grow : ℕ → ℕ) (a b ea eb : B32) (content : Option Bytes) {u : UB}
    (e : mainAt grow a b ea eb content h0 = .ub u) : ∃ db h, loadAuthkeys grow db content h = .ub u := by
  cases content with
  | none =>
    obtain ⟨da, h1, pb, h2, db, h3, BA, e1, e2, hpb, eid, e3, -⟩ := main_start hk a b
    rw [mainAt, run_bind, e1, C.ok_bind] at e
    simp only at e
    rw [run_bind, e2, C.ok_bind] at e
    simp only at e
    rw [if_neg hpb, run_bind, eid, C.ok_bind] at e
    simp only at e
    rw [run_bind, e3, C.ok_bind] at e
    cases e
  | some content =>
    rcases main_any hk grow a b ea eb content with ⟨u', db, h3, e', e5⟩ | ⟨r', h', L', d, e', -⟩
    · rw [e'] at e
      cases e
      exact ⟨db, h3, e5⟩
    · rw [e'] at e
      cases e

/-- C106, refused: `main` should release the memory of its devices and sessions on every path. After a refusal both private
keys are still in allocated memory, whatever the file contains. -/
theorem C106_left_violated (hk : HeapOk h0) (grow : ℕ → ℕ) (a b ea eb : B32) (content : Bytes) {r : Res} {h : Heap}
    (e : mainAt grow a b ea eb (some content) h0 = .ok (r, h)) (hr : r.code ≠ 0) :
    (∃ x, h0.next ≤ x ∧ h.mem x = some (.bytes a.toList)) ∧ ∃ x, h0.next ≤ x ∧ h.mem x = some (.bytes b.toList) := by
  rcases main_any hk grow a b ea eb content with ⟨u, _, _, e', -⟩ | ⟨r', h', L', d, e', hs, q, hb, -, -⟩
  · rw [e'] at e
    cases e
  · rw [e'] at e
    cases e
    rcases q with ⟨-, rfl, -⟩ | ⟨-, rfl, BA, BB, da, db, sa, sb, c, m, i3, r3, hA, hB, rfl⟩
    · exact absurd rfl hr
    · refine ⟨hA.secret hs, ?_⟩
      rw [← hb]
      exact hB.secret (F := BA + {(c, .bytes m)}) (by convert hs using 1; abel)

/-- C106, no file: without the file `main` returns 1, and both private keys are still in allocated memory. -/
theorem C106_no_file_violated (hk : HeapOk h0) (grow : ℕ → ℕ) (a b ea eb : B32) :
    ∃ h, mainAt grow a b ea eb none h0 = .ok (⟨1, none, none, none, none⟩, h) ∧
      (∃ x, h0.next ≤ x ∧ h.mem x = some (.bytes a.toList)) ∧ ∃ x, h0.next ≤ x ∧ h.mem x = some (.bytes b.toList) := by
  obtain ⟨da, h1, pb, h2, db, h3, BA, e1, e2, hpb, eid, e3, hdb, hA, r, istr, ns, s3, -⟩ := main_start hk a b
  refine ⟨h3, ?_, ?_, ?_⟩
  · rw [mainAt, run_bind, e1, C.ok_bind]
    simp only
    rw [run_bind, e2, C.ok_bind]
    simp only
    rw [if_neg hpb, run_bind, eid, C.ok_bind]
    simp only
    rw [run_bind, e3, C.ok_bind]
    rfl
  · exact DevAt.secret hA (by rw [add_comm]; exact s3.sep)
  · have := s3.sep.at_ (r.spriv, .bytes b.toList) (by simp [devBlocks, Spec.Device.fresh])
    exact ⟨_, this.1, this.2.2⟩

end

/-! ### Examples -/

section
attribute [local instance] Toy.hashes Toy.noise

private def heap0 : Heap := ⟨fun _ => none, 1, []⟩

/-- Alice and Bob have the same secret key, as in the source. -/
example := C106_accepted_partial (h0 := heap0) ⟨by decide, fun _ _ => rfl⟩ id (B32.ofNat 5) (B32.ofNat 5) (B32.ofNat 9) (B32.ofNat 11)
  (es := [(B32.ofNat 7, [65]), (B32.ofNat 5, [66, 67])]) (by decide) (by decide +kernel) (by decide) (by decide +kernel)

example := C106_refused (h0 := heap0) ⟨by decide, fun _ _ => rfl⟩ id (B32.ofNat 6) (B32.ofNat 5) (B32.ofNat 9) (B32.ofNat 11)
  (es := [(B32.ofNat 7, [65]), (B32.ofNat 5, [66, 67])]) (by decide) (by decide +kernel) (by decide) (by decide +kernel)

example := C106_same (h0 := heap0) ⟨by decide, fun _ _ => rfl⟩ id (B32.ofNat 6) (B32.ofNat 5) (B32.ofNat 9) (B32.ofNat 11)
  (some (file [(B32.ofNat 7, [65])]))

/-- A refused run, as `C106_any_file` and `C106_left_violated` ask for. -/
example : ∃ r h, mainAt id (B32.ofNat 6) (B32.ofNat 5) (B32.ofNat 9) (B32.ofNat 11) (some (file [(B32.ofNat 5, [66])])) heap0 =
    .ok (r, h) ∧ r.code ≠ 0 := by
  obtain ⟨r, h, e, hr, -⟩ := C106_refused (h0 := heap0) ⟨by decide, fun _ _ => rfl⟩ id (B32.ofNat 6) (B32.ofNat 5) (B32.ofNat 9)
    (B32.ofNat 11) (es := [(B32.ofNat 5, [66])]) (by decide) (by decide +kernel) (by decide) (by decide +kernel)
  exact ⟨r, h, e, by rw [hr]; decide⟩

/-- A run with undefined behaviour, as `C106_undefined` asks for: a key alone on its line. -/
example : ∃ u, mainAt id (B32.ofNat 6) (B32.ofNat 5) (B32.ofNat 9) (B32.ofNat 11) (some (chars (B32.ofNat 7) ++ 10 :: []))
    heap0 = .ub u := by
  rcases main_any (h0 := heap0) ⟨by decide, fun _ _ => rfl⟩ id (B32.ofNat 6) (B32.ofNat 5) (B32.ofNat 9) (B32.ofNat 11)
    (chars (B32.ofNat 7) ++ 10 :: []) with ⟨u, _, _, e, -⟩ | ⟨_, _, _, _, _, _, _, _, ⟨db, h3, h4, e⟩, -⟩
  · exact ⟨u, e⟩
  · obtain ⟨r, e'⟩ := C90_nameless_violated id db (B32.ofNat 7) [] h3
    rw [e'] at e
    cases e

end

end Verif.Props
