import Verif.Proofs.Devices
import Verif.Props.SessionMem
import Verif.Props.Noise
import Verif.Proofs.XkExample
import Verif.Proofs.Toy

/-!
# Properties of programs that use several devices: C104
-/

set_option linter.unusedSectionVars false

namespace Verif.Props

open Noise Noise.Mem NoiseCrypto
open Spec.Device Spec.SessionMem Spec.Devices

section
variable [Hashes] [NoiseCrypto]

/-- C104: every program that creates, uses and releases devices and their sessions on one heap, in any order and with each call
depending on all answers so far, does what it does on plain values: no call reads, writes or frees memory that is not allocated,
the result is the same, and no block that existed before is touched. -/
theorem C104_refines {α : Type} (p : Prog α) {h0 : Heap} (hk : HeapOk h0) :
    ∃ qs h, p.runAt [] h0 = .ok (((p.run State.init).1, qs), h) ∧ ∀ a < h0.next, h.mem a = h0.mem a := by
  obtain ⟨qs, h, _, _, e, m⟩ := (MRep.init hk).run p
  exact ⟨qs, h, e, fun a ha => m.sep.below ha⟩

/-- C104, released: when a program has released all its devices, the only blocks that are left are those that `device_free` leaves:
for each device its symmetric key and the records of its peers. -/
theorem C104_released {α : Type} (p : Prog α) {h0 : Heap} (hk : HeapOk h0) (hall : ∀ o ∈ (p.run State.init).2.ws, o = none)
    {res : α × Held} {h : Heap} (e : p.runAt [] h0 = .ok (res, h)) :
    ∃ left : List ℕ, left.Nodup ∧ (∀ a, h0.next ≤ a → (h.mem a ≠ none ↔ a ∈ left)) ∧
      left.length = ((p.run State.init).2.gone.map fun d => 1 + peerBlocks d.peers).sum := by
  obtain ⟨qs, h', _, lost, e', m⟩ := (MRep.init hk).run p
  obtain rfl : h' = h := by rw [e] at e'; injection e' with e; injection e with a b; exact b.symm
  obtain ⟨l, h1, h2, h3⟩ := (m.lost_only hall).addresses
  exact ⟨l, h1, h2, h3.trans m.card⟩

/-- C104, independent: a device on a heap with any others answers as it does alone. Whatever calls are made before it is created
and between the calls on it, on devices that exist before or that are created later, its answers are those that it gives on a heap
of its own. -/
theorem C104_independent {h0 h0' : Heap} (hk : HeapOk h0) (hk' : HeapOk h0') (prlg : Bytes) (name : Option Bytes) (sk spriv : B32)
    (before after : List Spec.Devices.Op) (hd : .drop (created before) ∉ after) :
    ∃ outs qs h dvp h1 answers ps h2,
      (callsOf (before ++ .new prlg name sk spriv :: after)).runAt [] h0 = .ok ((outs, qs), h) ∧
      create prlg name sk spriv h0' = .ok (dvp, h1) ∧
      runAt dvp [] (opsOn (created before) after) h1 = .ok ((answers, ps), h2) ∧
      answersOn (created before) after (outs.drop (before.length + 1)) = answers.map .answer := by
  obtain ⟨qs, h, e, -⟩ := C104_refines (callsOf (before ++ .new prlg name sk spriv :: after)) hk
  obtain ⟨dvp, h1, ps, h2, e1, -, e2, -⟩ := C78_refines hk' prlg name sk spriv (opsOn (created before) after)
  refine ⟨_, qs, h, dvp, h1, _, ps, h2, e, e1, e2, ?_⟩
  rw [callsOf_run, State.run_append]
  simp only [State.run]
  rw [List.drop_append, State.run_length, List.drop_eq_nil_of_le (by rw [State.run_length]; omega), List.nil_append,
    show before.length + 1 - before.length = 1 by omega, List.drop_one, List.tail_cons]
  refine (State.alone _ _ hd _ _ ?_).1
  have := State.created before State.init
  simp only [State.init, List.length_nil, zero_add] at this
  simp only [State.step, State.get, State.init]
  rw [List.getElem?_append_right (by omega), this]
  simp

private theorem run_on0 {α : Type} {o : Spec.SessionMem.Op} {next : Spec.Devices.Out → Prog α} {A B A' : World} {g : List Dev}
    {r : Spec.SessionMem.Out} (h : A.step o = (r, A')) :
    (Prog.call (.on 0 o) next).run ⟨[some A, some B], g⟩ = (next (.answer r)).run ⟨[some A', some B], g⟩ := by
  simp [Prog.run, State.step, State.get, h]

private theorem run_on1 {α : Type} {o : Spec.SessionMem.Op} {next : Spec.Devices.Out → Prog α} {A B B' : World} {g : List Dev}
    {r : Spec.SessionMem.Out} (h : B.step o = (r, B')) :
    (Prog.call (.on 1 o) next).run ⟨[some A, some B], g⟩ = (next (.answer r)).run ⟨[some A, some B'], g⟩ := by
  simp [Prog.run, State.step, State.get, h]

private theorem world_send {d : Dev} {prlg : Bytes} {n : UInt32} {x : Sn} {conf : ℕ} {msg m : Bytes} {s' : Session}
    (h : sessionWrite (pack conf msg) x.s = (.success, some m, s')) :
    (⟨d, prlg, n, [some x]⟩ : World).step (.send 0 conf msg) =
      (.sent .success (some m), ⟨d, prlg, n, [some { x with s := s' }]⟩) := by
  simp [World.step, World.sn, h]

private theorem world_recv {d : Dev} {prlg : Bytes} {n : UInt32} {x : Sn} {auth : ℕ} {m t : Bytes} {e : Encap} {s' : Session}
    {P : List Peer} (hP : (d.peers.map fun e => (⟨e.id, e.key⟩ : Peer)) = P)
    (h : sessionRead P x.s m = (.success, some e, s')) (hu : unpack auth e = some t) :
    (⟨d, prlg, n, [some x]⟩ : World).step (.recv 0 auth m) =
      (.received .success (some t), ⟨d, prlg, n, [some ((⟨d, prlg, n, [some x]⟩ : World).after x .success s')]⟩) := by
  simp [World.step, World.sn, World.device, hP, h, hu]

/-- C104, conversation: two devices on one heap that know each other's keys finish the handshake, and each receives exactly what
the other one sent. Once both are released, two keys and two peers are left on the heap. -/
theorem C104_talk {h0 : Heap} (hk : HeapOk h0) (prlg : Bytes) (na nb : Option Bytes) (ska skb a b ea eb : B32)
    {msg reply : Bytes} (hm : msg.length ≤ 4294967215) (hr : reply.length ≤ 4294967279) :
    ∃ qs h, (talk prlg na nb ska skb a b ea eb msg reply).runAt [] h0 =
        .ok (((.answer (.received .success (some msg)), .answer (.received .success (some reply))), qs), h) ∧
      (∀ x < h0.next, h.mem x = h0.mem x) ∧
      ∃ left : List ℕ, left.Nodup ∧ (∀ x, h0.next ≤ x → (h.mem x ≠ none ↔ x ∈ left)) ∧
        left.length = 2 + (if text na = [] then 3 else 4) + (if text nb = [] then 3 else 4) := by
  set I : Noise.Device := ⟨a, xbase a, prlg, 1, [⟨1, xbase b⟩], 2⟩ with hI
  set R : Noise.Device := ⟨b, xbase b, prlg, 1, [⟨1, xbase a⟩], 2⟩ with hR
  have hpr : Paired I R 1 ⟨1, xbase a⟩ := ⟨rfl, rfl, rfl, show (1 : UInt32) ≠ _ by decide, show (1 : UInt32) ≠ _ by decide,
    by decide, ⟨⟨1, xbase b⟩, rfl, rfl⟩, by simp [hI, hR]⟩
  have hem : ∀ n, n < 3 → Sendable n (pack 0 []) := fun n hn => ⟨by simp [hn, pack], Or.inl rfl⟩
  obtain ⟨i0, r0, i1, r1, r2, i2, i3, r3, m1, m2, m3, a1, a2, a3, a4, a5, a6, a7, a8, -, -, -, hc, -, -, -⟩ :=
    C54_handshake hpr ea eb (hem 0 (by decide)) (hem 1 (by decide)) (em3 := pack 5 msg)
      ⟨by simpa [pack] using hm, Or.inr ⟨5, rfl, by decide⟩⟩
  obtain ⟨ti, tr, -, -, hti, htr, -, hke, -, -, hn', hn, -⟩ := hc
  obtain ⟨c, r', i', b1, b2⟩ := Noise.Example.transport_pass (peers := I.peers) htr hti hke hn hn' (msg := reply) hr
  have u0 : ∀ n, unpack 0 ⟨.auth n, (pack 0 []).msg⟩ = some [] := fun _ => rfl
  have u2 : ∀ m, unpack 2 ⟨.auth 2, m⟩ = some m := fun m => by simp [unpack]
  have hrun : ((talk prlg na nb ska skb a b ea eb msg reply).run State.init).1 =
        (.answer (.received .success (some msg)), .answer (.received .success (some reply))) ∧
      ((talk prlg na nb ska skb a b ea eb msg reply).run State.init).2.ws = [none, none] ∧
      ((talk prlg na nb ska skb a b ea eb msg reply).run State.init).2.gone.map (fun d => 1 + peerBlocks d.peers) =
        [1 + if text na = [] then 3 else 4, 1 + if text nb = [] then 3 else 4] := by
    set dA : Dev := ((fresh na ska a).add nb (xbase b)).2 with hdA
    set dB : Dev := ((fresh nb skb b).add na (xbase a)).2 with hdB
    have hPA : (dA.peers.map fun e => (⟨e.id, e.key⟩ : Peer)) = I.peers := rfl
    have hPB : (dB.peers.map fun e => (⟨e.id, e.key⟩ : Peer)) = R.peers := rfl
    have e0 : (⟨dA, prlg, 1, []⟩ : World).step (.openTo 1 ea) = (.opened true, ⟨dA, prlg, (createInitiator I 1 ea).2.statesCounter,
        [some ⟨i0, 1, dA.name, (⟨dA, prlg, 1, []⟩ : World).peerName 1, false⟩]⟩) := by
      show World.push _ (createInitiator I 1 ea) _ = _
      simp only [World.push, a1, List.nil_append]
    have e1 : (⟨dB, prlg, 1, []⟩ : World).step (.accept eb) = (.opened true, ⟨dB, prlg, (createResponder R eb).2.statesCounter,
        [some ⟨r0, 1, dB.name, [], false⟩]⟩) := by
      show World.push _ (createResponder R eb) _ = _
      simp only [World.push, a2, List.nil_append]
    have hall : (talk prlg na nb ska skb a b ea eb msg reply).run State.init =
        ((.answer (.received .success (some msg)), .answer (.received .success (some reply))), ⟨[none, none], [dB, dA]⟩) := by
      refine Eq.trans (b := (Prog.run _ ⟨[some (World.new prlg na ska a), some (World.new prlg nb skb b)], []⟩)) rfl ?_
      refine (run_on0 (A' := ⟨dA, prlg, 1, []⟩) rfl).trans ?_
      refine (run_on1 (B' := ⟨dB, prlg, 1, []⟩) rfl).trans ?_
      refine (run_on0 e0).trans ?_
      refine (run_on1 e1).trans ?_
      refine (run_on0 (world_send a3)).trans ?_
      refine (run_on1 (world_recv hPB a4 (u0 _))).trans ?_
      refine (run_on1 (world_send a5)).trans ?_
      refine (run_on0 (world_recv hPA a6 (u0 _))).trans ?_
      refine (run_on0 (world_send a7)).trans ?_
      refine (run_on1 (world_recv hPB a8 (u2 _))).trans ?_
      refine (run_on1 (world_send b1)).trans ?_
      refine (run_on0 (world_recv hPA b2 (u2 _))).trans ?_
      refine (run_on0 (o := .close 0) rfl).trans ?_
      exact (run_on1 (o := .close 0) rfl).trans rfl
    rw [hall]
    refine ⟨rfl, rfl, ?_⟩
    simp [hdA, hdB, peerBlocks, Dev.add, fresh]
  obtain ⟨qs, h, e, hb⟩ := C104_refines (talk prlg na nb ska skb a b ea eb msg reply) hk
  rw [hrun.1] at e
  refine ⟨qs, h, e, hb, ?_⟩
  obtain ⟨l, h1, h2, h3⟩ := C104_released _ hk (by rw [hrun.2.1]; simp) e
  refine ⟨l, h1, h2, h3.trans ?_⟩
  rw [hrun.2.2]
  simp only [List.sum_cons, List.sum_nil]
  omega

end

/-! ### Concrete runs -/

section
attribute [local instance] Toy.hashes Toy.noise

private def heapD : Heap := ⟨fun _ => none, 1, []⟩
private theorem heapD_ok : HeapOk heapD := ⟨by decide, fun _ _ => rfl⟩
private def k32D (n : UInt8) : B32 := Vector.replicate 32 n

/-- Two devices with a peer each; the first one is released. -/
private def twoDevs : List Spec.Devices.Op :=
  [.new [1] (some [97]) (k32D 1) (k32D 2), .new [] none (k32D 3) (k32D 4), .on 0 (.dev (.add (some [98]) (k32D 9))),
    .on 1 (.dev (.add none (k32D 8))), .drop 0]

private def bothGone : List Spec.Devices.Op := twoDevs ++ [.on 0 (.dev (.byId 1)), .drop 1, .drop 1]

example := C104_refines (callsOf twoDevs) heapD_ok

example := C104_talk heapD_ok [1, 2] (some [97]) none (k32D 1) (k32D 2) (k32D 3) (k32D 4) (k32D 5) (k32D 6)
  (msg := [7, 8, 9]) (reply := [10]) (by decide) (by decide)

/-- Calls on a device that was released, and a second release, are refused. -/
example : ((callsOf bothGone).run State.init).1.drop 4 = [.dropped, .none, .dropped, .none] ∧
    ((callsOf bothGone).run State.init).2.ws.all Option.isNone = true ∧
    ((callsOf bothGone).run State.init).2.gone.map (fun d => 1 + peerBlocks d.peers) = [4, 5] := by decide

example {res : List Spec.Devices.Out × Held} {h : Heap} := C104_released (callsOf bothGone) heapD_ok (by
  have : ((callsOf bothGone).run State.init).2.ws = [none, none] := rfl
  rw [this]; simp) (res := res) (h := h)

private def afterOps : List Spec.Devices.Op :=
  [.on 0 (.dev (.add none (k32D 7))), .on 2 (.dev (.add none (k32D 7))), .new [] none (k32D 1) (k32D 1), .drop 1,
    .on 2 (.dev (.byId 1)), .drop 0]

example : opsOn 2 afterOps = [.dev (.add none (k32D 7)), .dev (.byId 1)] ∧ created twoDevs = 2 := ⟨rfl, rfl⟩

example := C104_independent heapD_ok heapD_ok [5] none (k32D 1) (k32D 2) twoDevs afterOps
  (by simp [afterOps, twoDevs, created])

end

end Verif.Props
