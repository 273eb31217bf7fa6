import Verif.Proofs.FuzzTp
import Verif.Proofs.FuzzSim
import Verif.Proofs.FuzzPeerSim
import Verif.Props.FuzzLoop
import Verif.Props.FuzzRecv

/-!
# Properties C107 and C108 for the trusted party of the library built for fuzzing
-/

set_option linter.unusedSectionVars false

namespace Verif.Props

open TpDkg TpDkg.Driver Wire

section
variable [Signing] [Hashes] [NoiseCrypto] (G : Type) [Ristretto G]

/-- The library built for fuzzing, with any function for the peers. -/
def fuzzing (tpEnv : PEnv) (peerNext : ℕ → PeerState → (input out : Bytes) → C (Int × PeerState × Bytes))
    (pjunk : ℕ → ℕ → UInt8) : Build where
  tpNext := tpNextF G tpEnv.clock tpEnv.log tpEnv.scratch
  peerNext := peerNext
  junk := tpEnv.junk
  pjunk := pjunk

variable {tpEnv : PEnv} {peerNext : ℕ → PeerState → (input out : Bytes) → C (Int × PeerState × Bytes)} {pjunk : ℕ → ℕ → UInt8}

theorem fuzzing_regular : (fuzzing G tpEnv peerNext pjunk).Regular fun _ => True where
  next _ h5 h := ⟨trivial, tpNextF_keeps G h5 h⟩

/-- **C107, violated in the build that is fuzzed.** For steps 1 and 4, every state of the trusted party, all peers and all lists of
test cases with one of at least a header: the program ends with an error, if it ends. No case gets to the end of the protocol. -/
theorem C107_fuzzing_violated (k step : ℕ) (hs : step = 1 ∨ step = 4) (l : List Bytes) (hl : ∃ b ∈ l, 111 ≤ b.length) (v : Vars)
    (hv : v.tp.step = step) (hn : 2 ≤ v.tp.n.toNat) (ht : v.tp.t.toNat ≤ v.tp.n.toNat) (o : Outcome)
    (h : (fuzzing G tpEnv peerNext pjunk).fuzz k step l v = .ok o) : ∃ r, r ≠ 0 ∧ o = .returns r :=
  C107_stale_violated (fuzzing_regular G) k step hs l hl v hv trivial hn ht o h

end

section
variable [Signing] [Hashes] [NoiseCrypto] [Mac] (G : Type) [Ristretto G]

/-- **C108, whole steps.** Whenever a step of the trusted party built for use succeeds, the same step of the one built for fuzzing
succeeds: with the same output, and with the same state but for the time stamps and the number of calls of `time`. So all runs of the
protocol that succeed are runs of the fuzzed program. The clock stands still during a step; otherwise the times in the messages
that are sent could differ. -/
theorem C108_tp {now : UInt64} {log : Bool} {scratch : B32} {c c' : TP} {input out o : Bytes}
    (h : tpNext G (fun _ => now) log scratch c input out = .ok (0, c', o)) :
    ∃ l k, tpNextF G (fun _ => now) log scratch c input out = .ok (0, { c' with lastTs := l, ticks := k }, o) := by
  unfold tpNext at h
  unfold tpNextF
  by_cases h9 : c.step > 9
  · rw [if_pos h9] at h; cases h
  rw [if_neg h9] at h ⊢
  obtain ⟨⟨r, s⟩, hs, h⟩ := C.bind_eq_ok.1 h
  dsimp only at h
  have hr : r = 0 := by
    split at h
    · cases h; rfl
    · cases h; rfl
  subst hr
  have hf : ∃ f, (tpHandlerF G (fun _ => now) log scratch input c.step).result ⟨c, out, 0, 0, []⟩ = .ok (0, f) ∧ Twin s f := by
    by_cases h0 : c.step = 0
    · rw [h0] at hs ⊢
      exact ⟨s, hs, .refl s⟩
    · exact follows_handler G now log scratch input h0 hs
  obtain ⟨f, hf, l, k, rfl⟩ := hf
  refine ⟨l, k, ?_⟩
  rw [hf, C.ok_bind]
  dsimp only
  split at h
  · rename_i h6
    rw [if_pos h6]
    cases h
    rfl
  · rename_i h6
    rw [if_neg h6]
    cases h
    rfl

/-- **C108, whole steps of the peers.** What a peer built for use does with success, the one built for fuzzing does too: with the same
output, and with the same state but for the time stamps and the number of calls of `time`. -/
theorem C108_peer {now : UInt64} {log mlock : Bool} {scratch : B32} {rnd : Rnd} {c c' : PeerState} {input out o : Bytes}
    (h : peerNext G (fun _ => now) log mlock scratch rnd c input out = .ok (0, c', o)) :
    ∃ a l k, peerNextF G (fun _ => now) log mlock scratch rnd c input out =
      .ok (0, { c' with tpLastTs := a, lastTs := l, ticks := k }, o) := by
  unfold peerNext at h
  unfold peerNextF
  obtain ⟨⟨r, s⟩, hs, h⟩ := C.bind_eq_ok.1 h
  dsimp only at h
  have hr : r = 0 := by cases h; rfl
  subst hr
  have hf := Peer.Follows.handler G now log mlock scratch rnd input c.step ⟨c, out⟩ ⟨c, out⟩ (.refl _)
  unfold H.result at hs
  cases e : Peer.handler G (fun _ => now) log mlock scratch rnd input c.step ⟨c, out⟩ with
  | ub u => rw [e] at hs; cases hs
  | ok p =>
    obtain ⟨x, s1⟩ := p
    rw [e] at hs hf
    cases x with
    | error y => cases hs; exact absurd rfl hf
    | ok y =>
      cases hs
      obtain ⟨f, ef, a, l, k, rfl⟩ := hf
      refine ⟨a, l, k, ?_⟩
      unfold H.result
      rw [ef, C.ok_bind]
      cases h
      rfl

/-- **C108, start of the peers.** -/
theorem C108_peer_start {now eps : UInt64} {log : Bool} {ltSk : B64} {c c' : PeerState} {msg0 : Bytes}
    (h : startPeer c now eps log ltSk msg0 = .ok (0, c')) :
    ∃ a k, startPeerF c eps log ltSk msg0 = .ok (0, { c' with tpLastTs := a, ticks := k }) := by
  unfold startPeer at h
  unfold startPeerF
  cases log <;> simp only [↓reduceIte, Bool.false_eq_true, C.ok_bind] at h ⊢
  case' true =>
    obtain ⟨d, hd, h⟩ := C.bind_eq_ok.1 h
    rw [hd, C.ok_bind]
  all_goals
    obtain ⟨pk, hpk, h⟩ := C.bind_eq_ok.1 h
    obtain ⟨sid, hsid, h⟩ := C.bind_eq_ok.1 h
    rw [hsid, C.ok_bind]
    obtain ⟨⟨ret, last, j⟩, hret, h⟩ := C.bind_eq_ok.1 h
    dsimp only at h
    by_cases h0 : ret = 0
    · subst h0
      rw [C108_accepts hret, C.ok_bind, if_neg (by simp)]
      rw [if_neg (by simp)] at h
      rw [hpk, C.ok_bind]
      obtain ⟨n, hn, h⟩ := C.bind_eq_ok.1 h
      rw [hn, C.ok_bind]
      obtain ⟨t, ht, h⟩ := C.bind_eq_ok.1 h
      rw [ht, C.ok_bind]
      split at h
      · cases h
      rename_i h1
      rw [if_neg h1]
      split at h
      · cases h
      rename_i h2
      rw [if_neg h2]
      split at h
      · cases h
      rename_i h3
      rw [if_neg h3]
      obtain ⟨m, hm, h⟩ := C.bind_eq_ok.1 h
      first
        | rw [hm, C.ok_bind]
        | (rw [hd] at hm; cases hm; rw [C.ok_bind])
      cases h
      exact ⟨_, _, rfl⟩
    · rw [if_pos h0] at h
      have := recvMsg_range hret
      injection h with h
      injection h with h _
      omega

end

section Examples
attribute [local instance] Ristretto.toy Toy.hashes Toy.signing Toy.noise Toy.mac

/-- A message without a right signature is refused by the library built for use and accepted by the one built for fuzzing. -/
example : (∃ c o, tpNextF (ZMod L) (fun _ => 5) true zero32 (Toy.tp 1) ((Toy.input 1).set 0 77) (List.replicate (tpOutputSize (Toy.tp 1)) 0) =
      .ok (0, c, o)) ∧
    ∃ r c o, tpNext (ZMod L) (fun _ => 5) true zero32 (Toy.tp 1) ((Toy.input 1).set 0 77) (List.replicate (tpOutputSize (Toy.tp 1)) 0) =
      .ok (r, c, o) ∧ r ≠ 0 := by
  constructor
  · obtain ⟨⟨r, c, o⟩, h, hr⟩ := Toy.isOk_elim (p := fun x => x.1 == 0) (x := tpNextF (ZMod L) (fun _ => 5) true zero32 (Toy.tp 1)
      ((Toy.input 1).set 0 77) (List.replicate (tpOutputSize (Toy.tp 1)) 0)) (by decide +kernel)
    rw [beq_iff_eq] at hr
    dsimp only at hr
    subst hr
    exact ⟨c, o, h⟩
  · obtain ⟨⟨r, c, o⟩, h, hr⟩ := Toy.isOk_elim (p := fun x => x.1 != 0) (x := tpNext (ZMod L) (fun _ => 5) true zero32 (Toy.tp 1)
      ((Toy.input 1).set 0 77) (List.replicate (tpOutputSize (Toy.tp 1)) 0)) (by decide +kernel)
    exact ⟨r, c, o, h, by simpa using hr⟩

/-- `C108_tp`: a step that succeeds. -/
example : ∃ c o, tpNext (ZMod L) (fun _ => 5) true zero32 (Toy.tp 1) (Toy.input 1) (List.replicate (tpOutputSize (Toy.tp 1)) 0) =
    .ok (0, c, o) := by
  obtain ⟨⟨r, c, o⟩, h, hr⟩ := Toy.isOk_elim (p := fun x => x.1 == 0) (x := tpNext (ZMod L) (fun _ => 5) true zero32 (Toy.tp 1)
    (Toy.input 1) (List.replicate (tpOutputSize (Toy.tp 1)) 0)) (by decide +kernel)
  rw [beq_iff_eq] at hr
  dsimp only at hr
  subst hr
  exact ⟨c, o, h⟩

/-- `C108_peer`: a step that succeeds. -/
example : ∃ c o, peerNext (ZMod L) (fun _ => 5) true true zero32 Toy.rnd (Toy.peer 0) (Toy.msg 111 1 0 2 []) (List.replicate 239 0) =
    .ok (0, c, o) := by
  obtain ⟨⟨r, c, o⟩, h, hr⟩ := Toy.isOk_elim (p := fun x => x.1 == 0) (x := peerNext (ZMod L) (fun _ => 5) true true zero32 Toy.rnd
    (Toy.peer 0) (Toy.msg 111 1 0 2 []) (List.replicate 239 0)) (by decide +kernel)
  rw [beq_iff_eq] at hr
  dsimp only at hr
  subst hr
  exact ⟨c, o, h⟩

/-- `C108_peer_start`: a peer that starts, with a message of the trusted party for three peers. -/
example : ∃ c, startPeer (Toy.peer 0) 5 5 true (Vector.replicate 64 0) (Toy.msg 177 0 0 0xff (List.replicate 64 0 ++ [3, 2])) =
    .ok (0, c) := by
  obtain ⟨⟨r, c⟩, h, hr⟩ := Toy.isOk_elim (p := fun x => x.1 == 0) (x := startPeer (Toy.peer 0) 5 5 true (Vector.replicate 64 0)
    (Toy.msg 177 0 0 0xff (List.replicate 64 0 ++ [3, 2]))) (by decide +kernel)
  rw [beq_iff_eq] at hr
  dsimp only at hr
  subst hr
  exact ⟨c, h⟩

/-- The library built for fuzzing, with peers that do nothing. -/
private def flib : Build :=
  fuzzing (ZMod L) ⟨fun _ => 5, true, true, zero32, Toy.rnd, fun _ => 0⟩ (fun _ s _ out => .ok (0, s, out)) fun _ _ => 0

private def fvars : Vars :=
  ⟨Toy.tp 1, [], ⟨Toy.input 2, 636⟩, List.replicate 2 ⟨List.replicate 800 0, 0⟩⟩

/-- `C107_fuzzing_violated`: the hypotheses hold for a case without a right signature, which this build accepts. The program
returns 1. -/
example : (fvars.tp.step = 1 ∧ 2 ≤ fvars.tp.n.toNat ∧ fvars.tp.t.toNat ≤ fvars.tp.n.toNat ∧ 111 ≤ ((Toy.input 1).set 0 77).length) ∧
    flib.fuzz 3 1 [(Toy.input 1).set 0 77] fvars = .ok (.returns 1) := by
  refine ⟨⟨rfl, by decide, by decide, by decide +kernel⟩, ?_⟩
  have h : (match flib.fuzz 3 1 [(Toy.input 1).set 0 77] fvars with | .ok (.returns r) => r == 1 | _ => false) = true := by
    decide +kernel
  revert h
  cases flib.fuzz 3 1 [(Toy.input 1).set 0 77] fvars with
  | ub r => intro h; cases h
  | ok o => cases o with
    | over v => intro h; cases h
    | returns r =>
      intro h
      rw [show r = 1 from by simpa using h]

end Examples

end Verif.Props
