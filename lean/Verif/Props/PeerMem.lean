import Verif.Proofs.PeerMemRun
import Verif.Props.PeerNoise
import Verif.Props.PeerSafe

/-!
# Property of the memory of a peer of the key generation: C80
-/

set_option linter.unusedSectionVars false

namespace Verif.Props

open TpDkg Noise Noise.Mem NoiseCrypto
open Spec.Device Spec.SessionMem Spec.PeerNoise Spec.PeerMem

section
variable [Signing] [Hashes] [NoiseCrypto] [Mac] (G : Type) [Ristretto G] {clock : ℕ → UInt64}

private theorem started_leads {c : PeerState} (h : Started c) : Leads c [] := by
  obtain ⟨ctx, now, eps, log, ltSk, msg0, p, sigPks, noisePks, outs, ins, shares, xshares, commitments, complaints, mine,
    lastTs, hp, hc, h1, h2, h3, h4, -⟩ := h
  obtain ⟨-, -, -, -, -, hst, -, -, -, -, -, hdev, -⟩ := startPeer_ok hp
  unfold peerSetBufs at hc
  rw [C.bind_eq_ok] at hc
  obtain ⟨l, hl, hc⟩ := hc
  cases hc
  exact .inl ⟨⟨hdev, h3, h4⟩, rfl, .inl (by dsimp only; omega)⟩

/-- C80: whatever a peer receives, its calls of the Noise helpers are a program on its slots, and its device and its
sessions are what this program leaves. A call that fails makes the first calls of its step. No session is overwritten in its
slot and no block of a received message stays allocated. -/
theorem C80_program {c c' : PeerState} (h : Started c) {calls : List PCall} {rs : List Int}
    (hr : peerCalls G clock c calls = .ok (rs, c')) :
    ∃ ops, Does G clock c calls ops ∧
      ((c'.dev = .null ∧ c'.outs = List.replicate c'.n.toNat .null ∧ c'.ins = List.replicate c'.n.toNat .null ∧ ops = []) ∨
      ∃ os v, (Vals.new c'.noiseSk (c'.n.toNat + c'.n.toNat)).run ops = .ok (os, v) ∧ c'.dev = .live v.dv ∧
        v.slots = c'.outs ++ c'.ins ∧ c'.outs.length = c'.n.toNat ∧ c'.ins.length = c'.n.toNat ∧
        v.lost = 0 ∧ v.leaked = 0 ∧ v.dv.peers.length ≤ c'.n.toNat) := by
  obtain ⟨ops, hd, hl⟩ := leads_calls G (started_leads h) hr
  refine ⟨ops, hd, ?_⟩
  rcases hl with ⟨hb, ho, -⟩ | ⟨os, v, hv, hp⟩
  · exact .inl ⟨hb.dev, hb.outs, hb.ins, ho⟩
  · have hh := hp.holds
    exact .inr ⟨os, v, hv, hh.dev, hh.slots, hh.outs, hh.ins, hh.lost, hh.leaked, hh.peers⟩

private theorem peerFree_run {c : PeerState} {v : Vals} (hdev : c.dev = .live v.dv) (hs : v.slots = c.outs ++ c.ins)
    (ho : c.outs.length = c.n.toNat) (hi : c.ins.length = c.n.toNat) :
    match peerFree c with
    | .ok c' => ∃ os v', v.run (cleanup c.n.toNat) = .ok (os, v') ∧ v'.dv = v.dv ∧ v'.lost = v.lost ∧ v'.leaked = v.leaked ∧
      v'.slots = c'.outs ++ c'.ins ∧ ∀ p ∈ v'.slots, isLive p = false
    | .ub u => v.run (cleanup c.n.toNat) = .ub u := by
  have h := free_run (n := c.n.toNat) c.n.toNat 0 c.ins c.outs v hs ho hi (by omega)
  rw [← List.range_eq_range'] at h
  unfold peerFree
  cases hf : freeLoop c.n.toNat 0 c.ins c.outs with
  | ub u =>
    rw [hf] at h
    exact h
  | ok x =>
    obtain ⟨ins', outs'⟩ := x
    rw [hf] at h
    obtain ⟨os, h⟩ := h
    rw [C.ok_bind]
    dsimp only
    rw [hdev]
    refine ⟨os, _, h, rfl, rfl, rfl, rfl, ?_⟩
    obtain ⟨l1, l2⟩ := freeLoop_length hf
    obtain ⟨g1, g2⟩ := freeLoop_closed _ _ _ _ _ _ hf (by simp) (by simp)
    rw [List.take_of_length_le (by omega)] at g1 g2
    intro p hp
    rcases List.mem_append.mp hp with hp | hp
    · exact g2 p hp
    · exact g1 p hp

/-- C80, released: if `tpdkg_peer_free` is defined after the calls, then on the heap the calls of the Noise helpers and the
ones of `tpdkg_peer_free` run without reading, writing or freeing memory that is not allocated, no older block is touched,
and what stays allocated is the storage key and four blocks for every key that the device knows. -/
theorem C80_released {c c' c'' : PeerState} (h : Started c) {calls : List PCall} {rs : List Int}
    (hr : peerCalls G clock c calls = .ok (rs, c')) (hdev : c'.dev ≠ .null) (hfree : peerFree c' = .ok c'')
    {h0 : Heap} (hk : HeapOk h0) (name : Option Bytes) (sk : B32) :
    ∃ ops dv, Does G clock c calls ops ∧ c'.dev = .live dv ∧ dv.peers.length ≤ c'.n.toNat ∧
      ∃ dvp h1 res h2 h3, create Peer.prologue name sk c'.noiseSk h0 = .ok (dvp, h1) ∧
        Spec.PeerNoise.runAt dvp (List.replicate (c'.n.toNat + c'.n.toNat) 0) (ops ++ cleanup c'.n.toNat) h1 = .ok (res, h2) ∧
        deviceFree dvp h2 = .ok ((), h3) ∧ (∀ a < h0.next, h3.mem a = h0.mem a) ∧
        ∃ left : List ℕ, left.Nodup ∧ (∀ a, h0.next ≤ a → (h3.mem a ≠ none ↔ a ∈ left)) ∧
          left.length = 1 + 4 * dv.peers.length := by
  obtain ⟨ops, hd, ⟨hn, -⟩ | ⟨os, v, hv, hdv, hs, ho, hi, hlost, hleak, hpl⟩⟩ := C80_program G h hr
  · exact absurd hn hdev
  have hf := peerFree_run hdv hs ho hi
  rw [hfree] at hf
  obtain ⟨os', v', hv', e1, e2, e3, -, e5⟩ := hf
  have hrun := run_append hv hv'
  refine ⟨ops, v.dv, hd, hdv, hpl, ?_⟩
  obtain ⟨dvp, h1, qs, h2, a1, -, a3, -⟩ := C79_refines hk name sk c'.noiseSk (c'.n.toNat + c'.n.toNat) _ hrun
  obtain ⟨more, -, hmore, -, h3, b1, b2, left, b3, b4, b5⟩ :=
    C79_released hk name sk c'.noiseSk (c'.n.toNat + c'.n.toNat) _ hrun e5 a1 a3
  refine ⟨dvp, h1, _, h2, h3, a1, a3, b1, b2, left, b3, b4, ?_⟩
  rw [b5, hmore (e2.trans hlost), e1, e3, hleak, Nat.add_zero]

/-- C80, exact: if `tpdkg_peer_free` has no defined behaviour after the calls, because it frees a session for the second
time, then the same calls on the heap have none either. -/
theorem C80_exact {c c' : PeerState} (h : Started c) {calls : List PCall} {rs : List Int} {u : UB}
    (hr : peerCalls G clock c calls = .ok (rs, c')) (hfree : peerFree c' = .ub u)
    {h0 : Heap} (hk : HeapOk h0) (name : Option Bytes) (sk : B32) :
    ∃ ops, Does G clock c calls ops ∧ ∃ dvp h1 u', create Peer.prologue name sk c'.noiseSk h0 = .ok (dvp, h1) ∧
      Spec.PeerNoise.runAt dvp (List.replicate (c'.n.toNat + c'.n.toNat) 0) (ops ++ cleanup c'.n.toNat) h1 = .ub u' := by
  obtain ⟨ops, hd, ⟨hn, ho, hi, -⟩ | ⟨os, v, hv, hdv, hs, ho, hi, -⟩⟩ := C80_program G h hr
  · exfalso
    have hnull : ∀ {l : List (Ptr Session)}, l = List.replicate c'.n.toNat .null → ∀ p ∈ l.drop 0, p.Usable := by
      rintro l rfl p hp
      rw [List.drop_zero] at hp
      rw [List.eq_of_mem_replicate hp]; exact usable_null
    obtain ⟨⟨a, b⟩, hy⟩ := freeLoop_safe c'.n.toNat 0 c'.ins c'.outs (by rw [hi, List.length_replicate]; omega)
      (by rw [ho, List.length_replicate]; omega) (hnull hi) (hnull ho)
    unfold peerFree at hfree
    rw [hy, C.ok_bind, hn] at hfree
    cases hfree
  refine ⟨ops, hd, ?_⟩
  have hf := peerFree_run hdv hs ho hi
  rw [hfree] at hf
  have hrun := run_append_ub hv hf
  exact C79_exact hk name sk c'.noiseSk (c'.n.toNat + c'.n.toNat) _ (fun o ho => by
    rcases List.mem_append.mp ho with ho | ho
    · exact does_short G hd o ho
    · unfold cleanup at ho
      simp only [List.mem_flatMap, List.mem_cons, List.not_mem_nil, or_false] at ho
      obtain ⟨i, -, rfl | rfl⟩ := ho <;> trivial) hrun

end

/-! ### Examples -/

section examples
attribute [local instance] Ristretto.toy Toy.hashes Toy.signing Toy.noise Toy.mac

private def heap2 : Heap := ⟨fun _ => none, 1, []⟩

/-- The hypotheses of `C80_released` can be met: the peer opened its sessions and stops. -/
example : ∃ c rs c' c'', Started c ∧ peerCalls (ZMod L) (fun _ => 5) c [call0, call1] = .ok (rs, c') ∧ rs = [0, 0] ∧
    c'.dev ≠ .null ∧ peerFree c' = .ok c'' ∧ ∀ (sk : B32),
    ∃ (ops : List Spec.PeerNoise.Op) (dvp : ℕ) (h1 h2 h3 : Heap) (res : _) (left : List ℕ),
      Does (ZMod L) (fun _ => 5) c [call0, call1] ops ∧
      create Peer.prologue none sk c'.noiseSk heap2 = .ok (dvp, h1) ∧
      Spec.PeerNoise.runAt dvp (List.replicate 6 0) (ops ++ cleanup 3) h1 = .ok (res, h2) ∧
      deviceFree dvp h2 = .ok ((), h3) ∧ left.Nodup ∧ left.length ≤ 13 := by
  obtain ⟨c, hc, hst⟩ := fresh_started
  obtain ⟨⟨rs, c'⟩, h, hp⟩ := Toy.isOk_elim
    (p := fun x => x.1 == [0, 0] && x.2.n == 3 && (match x.2.dev with | .null => false | _ => true) &&
      (match peerFree x.2 with | .ok _ => true | .ub _ => false))
    (x := fresh >>= fun c => peerCalls (ZMod L) (fun _ => 5) c [call0, call1]) (by decide +kernel)
  rw [hc, C.ok_bind] at h
  simp only [Bool.and_eq_true, beq_iff_eq] at hp
  obtain ⟨⟨⟨hrs, hn⟩, hdev⟩, hf⟩ := hp
  have hdev : c'.dev ≠ .null := by intro e; rw [e] at hdev; cases hdev
  cases hfree : peerFree c' with
  | ub u => rw [hfree] at hf; cases hf
  | ok c'' =>
    refine ⟨c, rs, c', c'', hst, h, hrs, hdev, hfree, fun sk => ?_⟩
    have hk : HeapOk heap2 := ⟨by decide, fun _ _ => rfl⟩
    obtain ⟨ops, dv, hd, -, hpl, dvp, h1, res, h2, h3, e1, e2, e3, -, left, e4, -, e6⟩ :=
      C80_released (ZMod L) hst h hdev hfree hk none sk
    rw [hn] at e2 hpl
    exact ⟨ops, dvp, h1, h2, h3, res, left, hd, e1, e2, e3, e4, by
      have : dv.peers.length ≤ 3 := hpl
      omega⟩

/-- The hypotheses of `C80_exact` can be met: an answer that cannot be decrypted. -/
example : ∃ c rs c', Started c ∧ peerCalls (ZMod L) (fun _ => 5) c [call0, call1, call2] = .ok (rs, c') ∧ rs = [0, 0, 0] ∧
    ∃ ops, Does (ZMod L) (fun _ => 5) c [call0, call1, call2] ops ∧ ∃ dvp h1 u',
      create Peer.prologue none zero32 c'.noiseSk heap2 = .ok (dvp, h1) ∧
      Spec.PeerNoise.runAt dvp (List.replicate (c'.n.toNat + c'.n.toNat) 0) (ops ++ cleanup c'.n.toNat) h1 = .ub u' := by
  obtain ⟨c, rs, c', hst, h, hrs, hf⟩ := C50_double_free_violated
  have hk : HeapOk heap2 := ⟨by decide, fun _ _ => rfl⟩
  exact ⟨c, rs, c', hst, h, hrs, C80_exact (ZMod L) hst h hf hk none zero32⟩

end examples

end Verif.Props
