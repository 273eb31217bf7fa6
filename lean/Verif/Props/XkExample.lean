import Verif.Proofs.XkExample
import Verif.Proofs.Toy

/-!
# Properties of the example of the Noise library: C103
-/

set_option linter.unusedSectionVars false

namespace Verif.Props

open Noise Noise.Example NoiseCrypto
open Noise.Auth (Buf lines)
open Spec.AuthKeys

section
variable [Hashes] [NoiseCrypto]

/-- The course of `main` once the file is loaded. -/
theorem example_main {grow : ℕ → ℕ} {a b ea eb : B32} {content : Bytes} {dv : Device}
    (e : load grow (lines content) [] (deviceCreate prologue b) = .ok dv) :
    (xbase a ∈ dv.peers.map (·.s) → main grow a b ea eb (some content) =
      .ok ⟨0, none, some (xbase a), some helloBob, some (helloAlice.take 11)⟩) ∧
    (xbase a ∉ dv.peers.map (·.s) → main grow a b ea eb (some content) =
      .ok ⟨1, some "Receive message 2", none, none, none⟩) := by
  obtain ⟨g, -⟩ := load_good grow _ _ _ _ (good_create b) e
  have hI : deviceAddPeer (deviceCreate prologue a) (xbase b) =
      (some 1, ⟨a, xbase a, prologue, 1, [⟨1, xbase b⟩], 2⟩) := by
    rfl
  set I : Device := ⟨a, xbase a, prologue, 1, [⟨1, xbase b⟩], 2⟩ with hId
  have hem : ∀ n, n < 3 → Sendable n (pack 0 []) := fun n hn => ⟨by simp [hn, pack], Or.inl rfl⟩
  have hm3 : Sendable 2 (pack 5 (helloBob ++ [0])) := ⟨by decide, Or.inr ⟨5, rfl, by decide⟩⟩
  have lit1 : literal helloBob 11 = .ok (helloBob ++ [0]) := rfl
  have lit2 : literal helloAlice 11 = .ok (helloAlice.take 11) := rfl
  have un0 : ∀ n, unpack 0 ⟨.auth n, (pack 0 []).msg⟩ = some [] := fun _ => rfl
  constructor
  · intro hm
    obtain ⟨p, hp, hps⟩ := List.mem_map.mp hm
    obtain ⟨peer, hpeer⟩ := Option.isSome_iff_exists.mp (show (dv.peers.find? fun p => p.s == I.spub).isSome from by
      rw [List.find?_isSome]
      exact ⟨p, hp, by simp [hId, hps]⟩)
    have hmem := List.mem_of_find?_eq_some hpeer
    have hpr : Paired I dv 1 peer := ⟨rfl, g.spub.trans (by rw [g.spriv]), g.prologue.symm, show (1 : UInt32) ≠ _ by decide, by rw [g.states]; decide,
      by decide, ⟨⟨1, xbase b⟩, rfl, g.spub.symm⟩, hpeer⟩
    obtain ⟨i0, r0, i1, r1, r2, i2, i3, r3, m1, m2, m3, a1, a2, a3, a4, a5, a6, a7, a8, -, -, -, hc, hpid, hs, -⟩ :=
      C54_handshake hpr ea eb (hem 0 (by decide)) (hem 1 (by decide)) hm3
    obtain ⟨ti, tr, -, -, hi, hr, -, hk, -, -, hn', hn, -⟩ := hc
    obtain ⟨c, r', i', b1, b2⟩ := transport_pass (peers := I.peers) hr hi hk hn hn' (msg := helloAlice.take 11) (by decide)
    have hst : staticOf dv.peers r3.pid = .ok (xbase a) := by
      have h0 : peer.id ≠ 0 := by
        intro h
        have := (g.ids peer hmem).1
        rw [h] at this
        exact absurd this (by decide)
      obtain ⟨q, hq⟩ := Option.isSome_iff_exists.mp (show (dv.peers.find? fun p => p.id == peer.id).isSome from by
        rw [List.find?_isSome]
        exact ⟨peer, hmem, by simp⟩)
      have hqm := List.mem_of_find?_eq_some hq
      have hqi : q.id = peer.id := by simpa using List.find?_some hq
      have hqe : q = peer := List.inj_on_of_nodup_map g.nodup.2 hqm hmem hqi
      rw [staticOf, hpid, if_neg h0, hq]
      show C.ok q.s = _
      rw [hqe, hs]
    rw [main, hI]
    simp only [e, C.ok_bind, a1, a2, orReturn, talk, send_eq a3, receive_eq a4, un0, send_eq a5, receive_eq a6, lit1, send_eq a7,
      receive_eq a8, hst, lit2, send_eq b1, receive_eq b2]
    rfl
  · intro hm
    let R : Device := { dv with peers := [⟨1, xbase a⟩] }
    have hpr : Paired I R 1 ⟨1, xbase a⟩ := ⟨rfl, g.spub.trans (by rw [← g.spriv]), g.prologue.symm,
      show (1 : UInt32) ≠ _ by decide, by show dv.statesCounter ≠ _; rw [g.states]; decide,
      by decide, ⟨⟨1, xbase b⟩, rfl, g.spub.symm⟩, by simp [R, hId]⟩
    obtain ⟨i0, r0, i1, r1, r2, i2, i3, r3, m1, m2, m3, a1, a2, a3, a4, a5, a6, a7, a8, -⟩ :=
      C54_handshake hpr ea eb (hem 0 (by decide)) (hem 1 (by decide)) hm3
    obtain ⟨s0, hs0, rfl⟩ : ∃ s, s.step = 0 ∧ r0 = ⟨.responder, 0, .handshake s⟩ := by
      rw [createResponder, if_neg hpr.countR] at a2
      exact ⟨_, by rfl, (Option.some.inj a2).symm⟩
    have a2' : (createResponder dv eb).1 = some ⟨.responder, 0, .handshake s0⟩ := by
      rw [← a2, createResponder, createResponder, if_neg hpr.countR, if_neg hpr.countR]
    rw [sessionRead_step0 hs0 _ dv.peers] at a4
    obtain ⟨s1, rfl, hs1⟩ := read_step0 hs0 a4
    obtain ⟨s2, rfl, hs2⟩ := write_step1 hs1 a5
    have a8' := read_step2 hs2 a8 hm
    rw [main, hI]
    simp only [e, C.ok_bind, a1, a2', orReturn, talk, send_eq a3, receive_eq a4, un0, send_eq a5, receive_eq a6, lit1, send_eq a7,
      a8']

/-- C103, accepted: for all secret keys, whenever the public key of Alice is one of the keys of the file, all four messages get
through and `main` returns 0. Bob has then found out Alice's key, and prints exactly the text that Alice packed.

Partial: all lines of the file must have the form that is expected, and no key may occur twice (see
`C103_rest_ignored_violated`). Alice does not get the text that Bob meant (see `C103_cut_violated`). -/
theorem C103_accepted_partial (grow : ℕ → ℕ) (a b ea eb : B32) {es : List Entry} (hp : ∀ e ∈ es, Plain e.2)
    (hd : (es.map (·.1)).Nodup) (hl : es.length < 4294967295) (hm : xbase a ∈ es.map (·.1)) :
    ∃ t, main grow a b ea eb (some (file es)) = .ok ⟨0, none, some (xbase a), some helloBob, some t⟩ ∧ t <+: helloAlice := by
  obtain ⟨dv, h1, buf, h2⟩ := load_entries grow es hp [] (deviceCreate prologue b) hd (by simp [deviceCreate])
    (show 1 + es.length ≤ _ by omega)
  have hf := Noise.Auth.lines_file es hp []
  rw [List.append_nil] at hf
  refine ⟨helloAlice.take 11, (example_main (dv := dv) ?_).1 ((h1 _).mpr (Or.inl hm)), List.take_prefix ..⟩
  rw [hf, show lines [] = [] from rfl, h2]
  rfl

/-- C103, rejected: if her key is not in the file, Bob refuses the third message. He has printed nothing, and `main` returns 1. -/
theorem C103_rejected (grow : ℕ → ℕ) (a b ea eb : B32) {es : List Entry} (hp : ∀ e ∈ es, Plain e.2)
    (hd : (es.map (·.1)).Nodup) (hl : es.length < 4294967295) (hm : xbase a ∉ es.map (·.1)) :
    main grow a b ea eb (some (file es)) = .ok ⟨1, some "Receive message 2", none, none, none⟩ := by
  obtain ⟨dv, h1, buf, h2⟩ := load_entries grow es hp [] (deviceCreate prologue b) hd (by simp [deviceCreate])
    (show 1 + es.length ≤ _ by omega)
  have hf := Noise.Auth.lines_file es hp []
  rw [List.append_nil] at hf
  refine (example_main (dv := dv) ?_).2 fun h => ?_
  · rw [hf, show lines [] = [] from rfl, h2]
    rfl
  · rcases (h1 _).mp h with h | h
    · exact hm h
    · simp [deviceCreate] at h

/-- C103, any file: whatever the file contains, there are two outcomes apart from undefined behaviour while it is read. If the
public key of Alice does not stand in base64 at the beginning of a line, it is the refusal. -/
theorem C103_any_file (grow : ℕ → ℕ) (a b ea eb : B32) (content : Bytes) {r : Res}
    (e : main grow a b ea eb (some content) = .ok r) :
    (r.code = 0 ∧ r.peerKey = some (xbase a) ∧ r.printed = some helloBob ∧
      ∃ x y, content = x ++ chars (xbase a) ++ y ∧ (x = [] ∨ x.getLast? = some 10)) ∨
    (r.code = 1 ∧ r.error = some "Receive message 2" ∧ r.peerKey = none ∧ r.printed = none ∧ r.received = none) := by
  have hload : ∃ dv, load grow (lines content) [] (deviceCreate prologue b) = .ok dv := by
    cases h : load grow (lines content) [] (deviceCreate prologue b) with
    | ok dv => exact ⟨dv, rfl⟩
    | ub u =>
      have : main grow a b ea eb (some content) = .ub u := by
        rw [main, show deviceAddPeer (deviceCreate prologue a) (xbase b) =
          (some 1, ⟨a, xbase a, prologue, 1, [⟨1, xbase b⟩], 2⟩) from rfl]
        simp only [h, C.ub_bind]
      rw [this] at e
      cases e
  obtain ⟨dv, hdv⟩ := hload
  obtain ⟨h1, h2⟩ := example_main (a := a) (ea := ea) (eb := eb) hdv
  by_cases hm : xbase a ∈ dv.peers.map (·.s)
  · left
    rw [h1 hm] at e
    cases e
    refine ⟨rfl, rfl, rfl, ?_⟩
    obtain ⟨p, hp, hps⟩ := List.mem_map.mp hm
    rcases (load_good grow _ _ _ _ (good_create b) hdv).2 p hp with h | ⟨l, hl, ht⟩
    · simp [deviceCreate] at h
    · obtain ⟨x, y, hc, hx⟩ := Noise.Auth.mem_lines hl
      refine ⟨x, l.drop 43 ++ y, ?_, hx⟩
      rw [← hps, ← ht, hc]
      simp only [List.append_assoc]
      rw [← List.append_assoc (l.take 43), List.take_append_drop]
  · right
    rw [h2 hm] at e
    cases e
    exact ⟨rfl, rfl, rfl, rfl, rfl⟩

/-- C103, no file: without the file `main` returns 1. -/
theorem C103_no_file (grow : ℕ → ℕ) (a b ea eb : B32) : main grow a b ea eb none = .ok ⟨1, none, none, none, none⟩ := rfl

/-- C103, faulty line: peers after a line that is not accepted are refused, even though `main` goes on as if the file was
loaded. -/
theorem C103_rest_ignored_violated (grow : ℕ → ℕ) (a b ea eb : B32) {es : List Entry} (hp : ∀ e ∈ es, Plain e.2)
    (hd : (es.map (·.1)).Nodup) (hl : es.length < 4294967295) (hm : xbase a ∉ es.map (·.1)) {bad : Bytes} (h10 : 10 ∉ bad)
    (h32 : 32 ∈ bad.take 44) (name : Bytes) :
    main grow a b ea eb (some (file es ++ (bad ++ 10 :: file [(xbase a, name)]))) =
      .ok ⟨1, some "Receive message 2", none, none, none⟩ := by
  rw [← C103_rejected grow a b ea eb hp hd hl hm]
  have hf := Noise.Auth.lines_file es hp []
  rw [List.append_nil] at hf
  have h32' : 32 ∈ (bad ++ [10]).take 44 := by rw [List.take_append]; exact List.mem_append_left _ h32
  have : ∀ dv, load grow (lines (file es ++ (bad ++ 10 :: file [(xbase a, name)]))) [] dv = load grow (lines (file es)) [] dv := by
    intro dv
    rw [Noise.Auth.lines_file es hp, hf, Noise.Auth.lines_line _ _ h10]
    refine load_prefix grow _ _ (fun buf dv => ?_) es hp [] dv
    rw [load]
    simp only []
    rw [if_pos fun hk => Noise.Auth.not_blank hk h32']
    rfl
  unfold main
  simp only [this]

/-- C103, text: Alice never gets the text "Hello Alice!" that Bob's side names. One byte is missing, and so is the terminator
that Bob's text has. -/
theorem C103_cut_violated (grow : ℕ → ℕ) (a b ea eb : B32) (content : Option Bytes) {r : Res}
    (e : main grow a b ea eb content = .ok r) {t : Bytes} (ht : r.received = some t) :
    ¬ helloAlice <+: t ∧ 0 ∉ t ∧ printText t = .ub .oob := by
  cases content with
  | none => cases e; cases ht
  | some content =>
    have ht' : t = helloAlice.take 11 := by
      cases h : load grow (lines content) [] (deviceCreate prologue b) with
      | ok dv =>
        obtain ⟨h1, h2⟩ := example_main (a := a) (ea := ea) (eb := eb) h
        by_cases hm : xbase a ∈ dv.peers.map (·.s)
        · rw [h1 hm] at e
          cases e
          exact (Option.some.inj ht).symm
        · rw [h2 hm] at e
          cases e
          cases ht
      | ub u =>
        have : main grow a b ea eb (some content) = .ub u := by
          rw [main, show deviceAddPeer (deviceCreate prologue a) (xbase b) =
            (some 1, ⟨a, xbase a, prologue, 1, [⟨1, xbase b⟩], 2⟩) from rfl]
          simp only [h, C.ub_bind]
        rw [this] at e
        cases e
    rw [ht']
    exact ⟨by decide, by decide, rfl⟩

end

/-! ### Examples -/

section
attribute [local instance] Toy.hashes Toy.noise

/-- Alice and Bob have the same secret key, as in the source. -/
example := C103_accepted_partial id (B32.ofNat 5) (B32.ofNat 5) (B32.ofNat 9) (B32.ofNat 11)
  (es := [(B32.ofNat 7, [65]), (B32.ofNat 5, [66, 67])]) (by decide) (by decide +kernel) (by decide) (by decide +kernel)

example := C103_rejected id (B32.ofNat 6) (B32.ofNat 5) (B32.ofNat 9) (B32.ofNat 11)
  (es := [(B32.ofNat 7, [65]), (B32.ofNat 5, [66, 67])]) (by decide) (by decide +kernel) (by decide) (by decide +kernel)

example : ∃ r t, main id (B32.ofNat 5) (B32.ofNat 5) (B32.ofNat 9) (B32.ofNat 11) (some (file [(B32.ofNat 5, [66])])) = .ok r ∧
    r.received = some t := by
  obtain ⟨t, e, -⟩ := C103_accepted_partial id (B32.ofNat 5) (B32.ofNat 5) (B32.ofNat 9) (B32.ofNat 11)
    (es := [(B32.ofNat 5, [66])]) (by decide) (by decide +kernel) (by decide) (by decide +kernel)
  exact ⟨_, t, e, rfl⟩

example := C103_rest_ignored_violated id (B32.ofNat 6) (B32.ofNat 5) (B32.ofNat 9) (B32.ofNat 11)
  (es := [(B32.ofNat 7, [65])]) (by decide) (by decide +kernel) (by decide) (by decide +kernel) (bad := [35, 32, 65])
  (by decide) (by decide) [66]

end

end Verif.Props
