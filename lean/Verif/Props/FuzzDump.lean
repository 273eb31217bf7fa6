import Verif.Proofs.FuzzDump

/-!
# Property C109: the program that makes the first test cases for the fuzzer

What the program should write is said by means of the other programs: they are run with a library that shows what the trusted
party gets (`watch`).
-/

set_option linter.unusedSectionVars false

namespace Verif.Props

open TpDkg TpDkg.Driver Wire

/-- The library `B`, except that the trusted party ends in `step` with an error that shows its input. -/
def watch (B : Build) (step : ℕ) (code : Bytes → Int) : Build :=
  { B with tpNext := fun tp input out => if tp.step = step then .ok (code input, { tp with cheaterLen := 0 }, out) else B.tpNext tp input out }

theorem sameBut_watch (B : Build) (step : ℕ) (code : Bytes → Int) : B.SameBut step (watch B step code) :=
  ⟨fun tp input out h => by unfold watch; dsimp only; rw [if_neg h], rfl, rfl, rfl⟩

section
variable {B : Build} {opens : String → Bool} {args : List String}

/-- **C109.** The file has the name that was given, and its content is what the trusted party gets in `step` of the test program:
if that ends there with an error that shows the input, it shows the content of the file. -/
theorem C109_content {step k : ℕ} {v : Vars} {path : String} {b : Bytes}
    (h : B.dumpLoop opens args step k v = .ok (.writes path b)) :
    args[4]? = some path ∧ opens path = true ∧ ∃ ps, ∀ code : Bytes → Int, (∀ x, code x ≠ 0) →
      (watch B step code).loop step [] k v = (do let _ ← freeAll ps; .ok (.returns (code b))) := by
  cases hp : args[4]? with
  | none =>
    exfalso
    cases k with
    | zero => cases h
    | succ k =>
      unfold Build.dumpLoop at h
      split at h
      · cases h
      · obtain ⟨size, -, h⟩ := C.bind_eq_ok.1 h
        obtain ⟨x, -, h⟩ := C.bind_eq_ok.1 h
        dsimp only at h
        unfold fuzzDump at h
        rw [hp] at h
        cases h
  | some q =>
    obtain ⟨rfl, ho, k', u, net, size, h3, h4, h5, h6, h8⟩ := dumpLoop_spec hp k v _ h
    refine ⟨rfl, ho, u.peers, fun code hc => ?_⟩
    rw [h8 _ (sameBut_watch B step code), Build.loop, if_neg (by simp [h4]), h5, C.ok_bind, (sameBut_watch B step code).buf, h6,
      C.ok_bind]
    dsimp only
    rw [C107_skipped _ _ _ _ (by simp), C.ok_bind]
    dsimp only
    have e : ∀ o, (watch B step code).tpNext u.tp b o = .ok (code b, { u.tp with cheaterLen := 0 }, o) := by
      intro o
      unfold watch
      dsimp only
      rw [if_pos h3]
    rw [e, C.ok_bind]
    dsimp only
    rw [if_pos (hc b)]
    rfl

/-- **C109, the purpose.** The fuzzer that gets the file as its test case gives its content to the trusted party in the same
state: with a library that shows the input the two programs end in the same way. The file must be as long as a header. -/
theorem C109_seed {step k : ℕ} {v : Vars} {path : String} {b : Bytes}
    (h : B.dumpLoop opens args step k v = .ok (.writes path b)) (hb : 111 ≤ b.length) (code : Bytes → Int)
    (hc : ∀ x, code x ≠ 0) : (watch B step code).loop step [b] k v = (watch B step code).loop step [] k v := by
  obtain ⟨hp, -, -⟩ := C109_content h
  obtain ⟨-, -, k', u, net, size, h3, h4, h5, h6, h8⟩ := dumpLoop_spec hp k v _ h
  have e : ∀ o, (watch B step code).tpNext u.tp b o = .ok (code b, { u.tp with cheaterLen := 0 }, o) := by
    intro o
    unfold watch
    dsimp only
    rw [if_pos h3]
  have key : ∀ l, l = [] ∨ l = [b] → (watch B step code).loop step l (k' + 1) u =
      (do let _ ← freeAll u.peers; .ok (.returns (code b))) := by
    intro l hl
    rw [Build.loop, if_neg (by simp [h4]), h5, C.ok_bind, (sameBut_watch B step code).buf, h6, C.ok_bind]
    dsimp only
    rcases hl with rfl | rfl
    · rw [C107_skipped _ _ _ _ (by simp), C.ok_bind]
      dsimp only
      rw [e, C.ok_bind]
      dsimp only
      rw [if_pos (hc b)]
      rfl
    · rw [Build.fuzz, if_neg (not_not.2 h3), Build.cases, if_neg (by omega)]
      dsimp only
      rw [e, C.ok_bind]
      dsimp only
      rw [if_pos (hc b)]
      cases freeAll u.peers with
      | ub r => rfl
      | ok ps => rfl
  rw [h8 _ (sameBut_watch B step code), h8 _ (sameBut_watch B step code), key _ (.inr rfl), key _ (.inl rfl)]

/-- **C109, short files.** A file that is shorter than a header is no test case: the fuzzer runs as without one. -/
theorem C109_short {b : Bytes} (hb : b.length < 111) (step : ℕ) : ∀ (k : ℕ) (v : Vars),
    B.loop step [b] k v = B.loop step [] k v
  | 0, _ => rfl
  | k + 1, v => by
    unfold Build.loop
    split
    · rfl
    · simp only [C107_skipped (B := B) _ step [b] _ fun _ => by simpa using hb, C107_skipped (B := B) _ step [] _ fun _ => by simp,
        C.ok_bind, C109_short hb step k]

/-- **C109, no file.** If the program ends without a file, it is the test program, and `step` is not reached: whatever the
trusted party would do there, and whatever the test cases are, the fuzzer ends in the same way. -/
theorem C109_not_reached {path : String} (hp : args[4]? = some path) {step k : ℕ} {v : Vars} {d : Dump} {o : Outcome}
    (h : B.dumpLoop opens args step k v = .ok d) (ho : (∃ r, d = .returns r ∧ o = .returns r) ∨ ∃ v', d = .over v' ∧ o = .over v')
    (next : TP → Bytes → Bytes → C (Int × TP × Bytes)) (l : List Bytes) :
    B.loop step l k v = .ok o ∧
    Build.loop { B with tpNext := fun tp input out => if tp.step = step then next tp input out else B.tpNext tp input out }
      step l k v = .ok o := by
  have hW : B.SameBut step
      { B with tpNext := fun tp input out => if tp.step = step then next tp input out else B.tpNext tp input out } :=
    ⟨fun tp input out h => by dsimp only; rw [if_neg h], rfl, rfl, rfl⟩
  rcases ho with ⟨r, rfl, rfl⟩ | ⟨v', rfl, rfl⟩
  · exact ⟨dumpLoop_spec hp k v _ h _ .refl l, dumpLoop_spec hp k v _ h _ hW l⟩
  · exact ⟨dumpLoop_spec hp k v _ h _ .refl l, dumpLoop_spec hp k v _ h _ hW l⟩

/-- **C109, the arguments.** With a number of a step the program goes on exactly for the steps 1 to 9, and for the peers not 7 and
8; otherwise it returns 1. -/
theorem C109_args (peer : Bool) (atoi : String → Int) (h : args.length ≠ 3) :
    (∃ r, dumpArgs peer atoi args = .ok r ∧ ∀ c, r = .error c → c = 1) ∧
    ∀ s, dumpArgs peer atoi args = .ok (.ok s) ↔
      ∃ a, args[3]? = some a ∧ ((s : Int) = atoi a % 256) ∧ s ∈ (if peer then [1, 2, 3, 4, 5, 6, 9] else [1, 2, 3, 4, 5, 6, 7, 8, 9]) := by
  unfold dumpArgs
  by_cases hl : args.length < 3
  · rw [if_pos hl]
    refine ⟨⟨_, rfl, fun c hc => by cases hc; rfl⟩, fun s => ⟨fun h => (by cases h), ?_⟩⟩
    rintro ⟨a, ha, -⟩
    obtain ⟨h3, -⟩ := List.getElem?_eq_some_iff.1 ha
    omega
  · rw [if_neg hl]
    have h3 : 3 < args.length := by omega
    rw [List.getElem?_eq_getElem h3]
    dsimp only
    have hm : 0 ≤ atoi args[3] % 256 := by omega
    split
    · rename_i hc
      refine ⟨⟨_, rfl, fun c hc => by cases hc; rfl⟩, fun s => ⟨fun h => by simp at h, ?_⟩⟩
      rintro ⟨a, ha, hs, hm⟩
      cases ha
      exfalso
      rw [← hs, Int.toNat_natCast] at hc
      cases peer <;> simp at hm hc <;> omega
    · rename_i hc
      refine ⟨⟨_, rfl, fun c hc => by cases hc⟩, fun s => ⟨fun h => ?_, ?_⟩⟩
      · simp only [C.ok.injEq, Except.ok.injEq] at h
        refine ⟨_, rfl, by omega, ?_⟩
        rw [← h]
        cases peer <;> simp at hc ⊢ <;> omega
      · rintro ⟨a, ha, hs, -⟩
        cases ha
        rw [← hs, Int.toNat_natCast]

/-- **C109, negation.** The usage message says that the step may be left out. Then the program reads from NULL. -/
theorem C109_no_step_violated (peer : Bool) (atoi : String → Int) (h : args.length = 3) :
    dumpArgs peer atoi args = .ub .null := by
  unfold dumpArgs
  rw [if_neg (by omega), List.getElem?_eq_none (by omega)]

/-- **C109, negation.** A file that cannot be opened is not noticed: when the program should write it, it uses NULL. -/
theorem C109_unwritable_violated {step : ℕ} {path : String} {b : Bytes} {opens' : String → Bool} (hn : opens' path = false) :
    ∀ {k : ℕ} {v : Vars}, B.dumpLoop opens args step k v = .ok (.writes path b) → B.dumpLoop opens' args step k v = .ub .null
  | 0, _, h => by cases h
  | k + 1, v, h => by
    obtain ⟨hp, -, -⟩ := C109_content h
    unfold Build.dumpLoop at h ⊢
    split at h
    · cases h
    · rename_i hd
      rw [if_neg hd]
      obtain ⟨size, hsz, h⟩ := C.bind_eq_ok.1 h
      obtain ⟨⟨input, net⟩, hrc, h⟩ := C.bind_eq_ok.1 h
      rw [hsz, C.ok_bind, hrc, C.ok_bind]
      dsimp only at h ⊢
      unfold fuzzDump at h ⊢
      rw [hp] at h ⊢
      dsimp only at h ⊢
      by_cases hst : v.tp.step = step
      · rw [if_pos hst, hn]
        rfl
      · rw [if_neg hst, C.ok_bind] at h ⊢
        dsimp only at h ⊢
        obtain ⟨⟨r, tp, out⟩, htp, h⟩ := C.bind_eq_ok.1 h
        rw [htp, C.ok_bind]
        dsimp only at h ⊢
        split at h
        · obtain ⟨_, -, h⟩ := C.bind_eq_ok.1 h
          split at h <;> cases h
        · rename_i hr
          rw [if_neg hr]
          obtain ⟨x, hs, h⟩ := C.bind_eq_ok.1 h
          rw [hs, C.ok_bind]
          cases x with
          | none => cases h
          | some nets =>
            dsimp only at h ⊢
            obtain ⟨⟨r', v'⟩, hi, h⟩ := C.bind_eq_ok.1 h
            rw [hi, C.ok_bind]
            dsimp only at h ⊢
            split at h
            · cases h
            · rename_i hr'
              rw [if_neg hr']
              exact C109_unwritable_violated hn h

/-- **C109, the variant for peers.** The content of the file is what the first peer gets in `step` of the test program: if the peer ends
there with an error that shows its input, the program shows the content of the file. -/
theorem C109_peer_content {step k : ℕ} {v : Vars} {path : String} {b : Bytes} (hv : v.peers.length = v.nets.length)
    (hp : 5 ≤ args.length) (h : B.dumpLoopP opens args step k v = .ok (.writes path b)) :
    args[4]? = some path ∧ opens path = true ∧ ∃ ps, ∀ code : Bytes → Int, (∀ x, code x ≠ 0) →
      Build.loop { B with peerNext := fun i p input out =>
          if i = 0 ∧ p.step = step then .ok (code input, p, out) else B.peerNext i p input out } step [] k v =
        (do let _ ← freeAll ps; .ok (.returns (code b))) := by
  obtain ⟨q, hq⟩ : ∃ q, args[4]? = some q := ⟨_, List.getElem?_eq_getElem (by omega)⟩
  obtain ⟨rfl, ho, ps, h3⟩ := dumpLoopP_spec hq k v _ h
  refine ⟨hq, ho, ps, fun code hc => ?_⟩
  rw [← h3 code hc]
  exact (C107_peer_no_cases _ step step [] [] (by simp) (by simp) k v hv).symm

/-- **C109, the variant for peers, no file.** If the program ends without a file, it is the test program, and the first peer is never
called in `step`: whatever it would do there, the test program ends in the same way. -/
theorem C109_peer_not_reached {step k : ℕ} {v : Vars} {d : Dump} {o : Outcome} (hv : v.peers.length = v.nets.length)
    (hp : 5 ≤ args.length) (h : B.dumpLoopP opens args step k v = .ok d)
    (ho : (∃ r, d = .returns r ∧ o = .returns r) ∨ ∃ v', d = .over v' ∧ o = .over v')
    (next : PeerState → Bytes → Bytes → C (Int × PeerState × Bytes)) :
    B.loop step [] k v = .ok o ∧
    Build.loop { B with peerNext := fun i p input out =>
      if i = 0 ∧ p.step = step then next p input out else B.peerNext i p input out } step [] k v = .ok o := by
  obtain ⟨q, hq⟩ : ∃ q, args[4]? = some q := ⟨_, List.getElem?_eq_getElem (by omega)⟩
  have hB : B.SamePeerBut step B := ⟨rfl, fun _ _ _ _ _ => rfl, rfl, rfl⟩
  have hW : B.SamePeerBut step { B with peerNext := fun i p input out =>
      if i = 0 ∧ p.step = step then next p input out else B.peerNext i p input out } :=
    ⟨rfl, fun i p input out h => by dsimp only; rw [if_neg h], rfl, rfl⟩
  have e : ∀ W : Build, W.loop step [] k v = W.loopP step [] k v := fun W =>
    (C107_peer_no_cases W step step [] [] (by simp) (by simp) k v hv).symm
  rw [e, e]
  rcases ho with ⟨r, rfl, rfl⟩ | ⟨v', rfl, rfl⟩
  · exact ⟨dumpLoopP_spec hq k v _ h _ hB, dumpLoopP_spec hq k v _ h _ hW⟩
  · exact ⟨dumpLoopP_spec hq k v _ h _ hB, dumpLoopP_spec hq k v _ h _ hW⟩

/-- **C107, violated in the variant for peers: the test cases come too early.** `fuzz_loop` is called for every peer, and not only for
the first one like `fuzz_dump`. As soon as the first peer has come to `step`, it is called for the second peer, whose message has
been taken from the network. In the test case the second peer reads a buffer that is not initialised. If it refuses that,
the program ends with an error, whatever the test cases are. -/
theorem C107_peer_early_violated (k m step : ℕ) (b : Bytes) (l : List Bytes) (hb : 111 ≤ b.length) (tp : TP) {net net1 : Chan}
    {p0 p0' q p1 q1 : PeerState} (ps : List PeerState) {c0 c0' c1 : Chan} (cs : List Chan) {i0 out out' o1 : Bytes} {r r1 : Int}
    (h0 : p0.step ≠ step) (hr0 : recv c0 (B.pbuf 0 (peerInputSize p0)) = .ok (i0, c0'))
    (hn0 : B.peerNext 0 p0 i0 (B.pbuf 0 (peerOutputSize p0)) = .ok (0, p0', out)) (hs : p0'.step = step)
    (hs0 : send net out = .ok net1) (hc1 : c1.len = peerInputSize p1) (hpos : 0 < c1.len) (hbuf : c1.len ≤ c1.buf.length)
    (hcase : B.peerNext 0 p0' b (B.pbuf 0 (peerOutputSize p0')) = .ok (r, q, out'))
    (hsend : r = 0 → ∃ net2, send net1 out' = .ok net2)
    (hjunk : B.peerNext 1 p1 (B.pbuf 1 (peerInputSize p1)) (B.pbuf 1 (peerOutputSize p1)) = .ok (r1, q1, o1)) (hr1 : r1 ≠ 0) :
    B.passes k step (b :: l) (m + 2) 0 ⟨tp, p0 :: p1 :: ps, net, c0 :: c1 :: cs⟩ =
      .ok (.returns (if r ≠ 0 then r else r1)) := by
  have hbl : (B.pbuf 1 (peerInputSize p1)).length = peerInputSize p1 := by simp [Build.pbuf]
  have hrc1 : ∃ i1, recv c1 (B.pbuf 1 (peerInputSize p1)) = .ok (i1, { c1 with len := 0 }) := by
    unfold recv
    rw [hbl, if_neg (by omega), rd, if_pos (by omega), C.ok_bind, hc1, Nat.sub_self]
    exact ⟨_, rfl⟩
  obtain ⟨i1, hrc1⟩ := hrc1
  have hrc2 : recv { c1 with len := 0 } (B.pbuf 1 (peerInputSize p1)) =
      .ok (B.pbuf 1 (peerInputSize p1), { c1 with len := 0 }) := by
    unfold recv
    rw [hbl, if_pos (.inl (by dsimp only; omega))]
  have e0 : B.passes k step (b :: l) (m + 2) 0 ⟨tp, p0 :: p1 :: ps, net, c0 :: c1 :: cs⟩ =
      B.passes k step (b :: l) (m + 1) 1 ⟨tp, p0' :: p1 :: ps, net1, c0' :: c1 :: cs⟩ := by
    rw [Build.passes, show ld (p0 :: p1 :: ps) 0 = .ok p0 from rfl, C.ok_bind, show ld (c0 :: c1 :: cs) 0 = .ok c0 from rfl,
      C.ok_bind, hr0, C.ok_bind]
    dsimp only
    rw [show st (c0 :: c1 :: cs) 0 c0' = .ok (c0' :: c1 :: cs) from rfl, C.ok_bind, Build.fuzzP,
      show ld (p0 :: p1 :: ps) 0 = .ok p0 from rfl, C.ok_bind, if_pos h0, C.ok_bind]
    dsimp only
    rw [show ld (p0 :: p1 :: ps) 0 = .ok p0 from rfl, C.ok_bind, hn0, C.ok_bind]
    dsimp only
    rw [show st (p0 :: p1 :: ps) 0 p0' = .ok (p0' :: p1 :: ps) from rfl, C.ok_bind, if_neg (not_not.2 rfl), hs0, C.ok_bind]
  have e1 : B.fuzzP k step (b :: l) ⟨tp, p0' :: p1 :: ps, net1, c0' :: { c1 with len := 0 } :: cs⟩ =
      .ok (.returns (if r ≠ 0 then r else r1)) := by
    rw [Build.fuzzP, show ld (p0' :: p1 :: ps) 0 = .ok p0' from rfl, C.ok_bind, if_neg (not_not.2 hs), Build.casesP,
      if_neg (by omega)]
    dsimp only
    rw [hcase, C.ok_bind]
    dsimp only
    by_cases hr : r = 0
    · obtain ⟨net2, h2⟩ := hsend hr
      rw [if_neg (not_not.2 hr), if_neg (not_not.2 hr), h2, C.ok_bind, Build.pass, hrc2, C.ok_bind]
      dsimp only
      rw [hjunk, C.ok_bind]
      dsimp only
      rw [if_pos hr1, C.ok_bind]
      dsimp only
      rw [if_pos hr1]
    · rw [if_pos hr, if_pos hr]
  rw [e0, Build.passes, show ld (p0' :: p1 :: ps) 1 = .ok p1 from rfl, C.ok_bind,
    show ld (c0' :: c1 :: cs) 1 = .ok c1 from rfl, C.ok_bind, hrc1, C.ok_bind]
  dsimp only
  rw [show st (c0' :: c1 :: cs) 1 { c1 with len := 0 } = .ok (c0' :: { c1 with len := 0 } :: cs) from rfl, C.ok_bind, e1, C.ok_bind]

end

section Examples
attribute [local instance] Ristretto.toy Toy.hashes Toy.signing Toy.noise Toy.mac

/-- Clock 5, and buffers of zeros. -/
private def env5 : PEnv := ⟨fun _ => 5, true, true, zero32, Toy.rnd, fun _ => 0⟩

private def lib : Build := production (ZMod L) env5 fun _ => env5

/-- The last messages of the peers wait for the trusted party; the peers are done. -/
private def vars : Vars :=
  ⟨Toy.tp 9, [Toy.peer 10, Toy.peer 10], ⟨Toy.input 9, (Toy.input 9).length⟩, List.replicate 2 ⟨List.replicate 800 0, 0⟩⟩

private def argv (step : String) : List String := ["fuzz-dump", "2", "2", step, "case"]

/-- `C109_content` and `C109_seed`: in step 9 the file gets the messages of the peers. -/
theorem exDump : lib.dumpLoop (fun _ => true) (argv "9") 9 3 vars = .ok (.writes "case" (Toy.input 9)) := by
  have h : (match lib.dumpLoop (fun _ => true) (argv "9") 9 3 vars with
      | .ok (.writes p b) => p == "case" && b == Toy.input 9 | _ => false) = true := by
    decide +kernel
  revert h
  cases lib.dumpLoop (fun _ => true) (argv "9") 9 3 vars with
  | ub r => intro h; cases h
  | ok d => cases d with
    | returns r => intro h; cases h
    | over v => intro h; cases h
    | writes p b =>
      intro h
      simp only [Bool.and_eq_true, beq_iff_eq] at h
      rw [h.1, h.2]

example : 111 ≤ (Toy.input 9).length := by decide +kernel

example : lib.dumpLoop (fun p => p != "case") (argv "9") 9 3 vars = .ub .null := C109_unwritable_violated rfl exDump

/-- `C109_not_reached`: step 7 lies behind, and the protocol ends. -/
example : ∃ v', lib.dumpLoop (fun _ => true) (argv "7") 7 3 vars = .ok (.over v') := by
  have h : (match lib.dumpLoop (fun _ => true) (argv "7") 7 3 vars with | .ok (.over _) => true | _ => false) = true := by
    decide +kernel
  revert h
  cases lib.dumpLoop (fun _ => true) (argv "7") 7 3 vars with
  | ub r => intro h; cases h
  | ok d => cases d with
    | returns r => intro h; cases h
    | writes p b => intro h; cases h
    | over v => exact fun _ => ⟨v, rfl⟩

/-- `C109_args`: 263 is taken for 7. -/
example : dumpArgs false (fun _ => 263) (argv "263") = .ok (.ok 7) ∧ dumpArgs true (fun _ => 263) (argv "263") = .ok (.error 1) := by
  exact ⟨rfl, rfl⟩

/-- The trusted party has one step to go, and the last messages for the peers are sent in it. -/
private def pvars : Vars :=
  ⟨Toy.tp 9, [Toy.peer 9, Toy.peer 9], ⟨Toy.input 9, (Toy.input 9).length⟩,
    List.replicate 2 ⟨Toy.msg 113 21 0 0xff [79, 75] ++ List.replicate 800 0, 113⟩⟩

/-- `C109_peer_content`: in step 9 the file gets the message of the trusted party. -/
example : pvars.peers.length = pvars.nets.length ∧ ∃ path b,
    lib.dumpLoopP (fun _ => true) (argv "9") 9 3 pvars = .ok (.writes path b) ∧ b = Toy.msg 113 21 0 0xff [79, 75] := by
  refine ⟨rfl, ?_⟩
  have h : (match lib.dumpLoopP (fun _ => true) (argv "9") 9 3 pvars with
      | .ok (.writes _ b) => b == Toy.msg 113 21 0 0xff [79, 75] | _ => false) = true := by
    decide +kernel
  revert h
  cases lib.dumpLoopP (fun _ => true) (argv "9") 9 3 pvars with
  | ub r => intro h; cases h
  | ok d => cases d with
    | returns r => intro h; cases h
    | over v => intro h; cases h
    | writes p b => exact fun h => ⟨p, b, rfl, by simpa using h⟩

/-- `C109_peer_not_reached`: step 5 lies behind. -/
example : ∃ v', lib.dumpLoopP (fun _ => true) (argv "5") 5 3 pvars = .ok (.over v') := by
  have h : (match lib.dumpLoopP (fun _ => true) (argv "5") 5 3 pvars with | .ok (.over _) => true | _ => false) = true := by
    decide +kernel
  revert h
  cases lib.dumpLoopP (fun _ => true) (argv "5") 5 3 pvars with
  | ub r => intro h; cases h
  | ok d => cases d with
    | returns r => intro h; cases h
    | writes p b => intro h; cases h
    | over v => exact fun _ => ⟨v, rfl⟩

/-- `C107_peer_early_violated`: two peers in step 0 with their messages; test cases are for step 1. A buffer of zeros is refused. -/
example : (Toy.peer 0).step ≠ 1 ∧ peerInputSize (Toy.peer 0) = (Toy.msg 111 1 0 2 []).length ∧
    (∃ p0' out, lib.peerNext 0 (Toy.peer 0) (Toy.msg 111 1 0 2 []) (lib.pbuf 0 (peerOutputSize (Toy.peer 0))) = .ok (0, p0', out) ∧
      p0'.step = 1 ∧ ∃ r q out', lib.peerNext 0 p0' (List.replicate 700 0) (lib.pbuf 0 (peerOutputSize p0')) = .ok (r, q, out') ∧
        r ≠ 0) ∧
    ∃ r1 q1 o1, lib.peerNext 1 (Toy.peer 0) (lib.pbuf 1 (peerInputSize (Toy.peer 0))) (lib.pbuf 1 (peerOutputSize (Toy.peer 0))) =
      .ok (r1, q1, o1) ∧ r1 ≠ 0 := by
  refine ⟨by decide, by decide +kernel, ?_, ?_⟩
  · obtain ⟨⟨r, p, o⟩, h, hr⟩ := Toy.isOk_elim (p := fun x => x.1 == 0 && (x.2.1.step == 1 &&
        (match lib.peerNext 0 x.2.1 (List.replicate 700 0) (lib.pbuf 0 (peerOutputSize x.2.1)) with
          | .ok y => y.1 != 0 | _ => false)))
      (x := lib.peerNext 0 (Toy.peer 0) (Toy.msg 111 1 0 2 []) (lib.pbuf 0 (peerOutputSize (Toy.peer 0)))) (by decide +kernel)
    simp only [Bool.and_eq_true, beq_iff_eq] at hr
    obtain ⟨rfl, h1, h2⟩ := hr
    refine ⟨p, o, h, h1, ?_⟩
    revert h2
    cases lib.peerNext 0 p (List.replicate 700 0) (lib.pbuf 0 (peerOutputSize p)) with
    | ub r => intro h; cases h
    | ok y => exact fun h => ⟨y.1, y.2.1, y.2.2, rfl, by simpa using h⟩
  · obtain ⟨⟨r, p, o⟩, h, hr⟩ := Toy.isOk_elim (p := fun x => x.1 != 0)
      (x := lib.peerNext 1 (Toy.peer 0) (lib.pbuf 1 (peerInputSize (Toy.peer 0))) (lib.pbuf 1 (peerOutputSize (Toy.peer 0))))
      (by decide +kernel)
    exact ⟨r, p, o, h, by simpa using hr⟩

end Examples

end Verif.Props
