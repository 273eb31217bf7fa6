import Verif.Model.XkExample
import Verif.Proofs.AuthKeys
import Verif.Props.Noise

/-!
# Lemmas on the example of the Noise library
-/

set_option linter.unusedSectionVars false

namespace Verif.Noise.Example

open Auth NoiseCrypto
open Spec.AuthKeys

/-! ### The file -/

/-- One line with a complete key. -/
theorem load_key (grow : ℕ → ℕ) (key : B32) {name : Bytes} (hn : 0 ∉ name) (buf : Buf) (dv : Device) :
    ∃ X : Buf, ∀ ls, load grow (line (key, name) :: ls) buf dv =
      match deviceAddPeer dv key with
      | (none, _) => .ok dv
      | (some _, dv) => load grow ls X dv := by
  have hl : (chars key ++ [61, 32]).length = 45 := by simp [chars_length]
  obtain ⟨X, hX⟩ := fill_eq grow buf (chars key ++ [61, 32] ++ name ++ [10])
  refine ⟨(chars key ++ [61, 32]).map some ++ (name.map some ++ some 0 :: some 0 :: X), fun ls => ?_⟩
  have : line (key, name) = chars key ++ [61, 32] ++ name ++ [10] := rfl
  rw [this, load]
  have hk : keyEnd (chars key ++ [61, 32] ++ name ++ [10]) = 44 := by
    rw [List.append_assoc _ name]; exact keyEnd_line key (by decide) _
  have ht : (chars key ++ [61, 32] ++ name ++ [10]).take 44 = chars key ++ [61] := by
    rw [List.append_assoc _ name]; exact take_line key 61 _
  simp only [hk, ne_eq, not_true_eq_false, if_false, ht, base642bin_line key (c := 61) (by decide), hX, set_last, drop_pre hl]
  rw [cstring_name hn, C.ok_bind, whole_eq, C.ok_bind]
  rfl

/-- A device of Bob: created by `main`, with peers whose ids and keys differ. -/
structure Good [NoiseCrypto] (sk : B32) (dv : Device) : Prop where
  spriv : dv.spriv = sk
  spub : dv.spub = xbase sk
  prologue : dv.prologue = prologue
  states : dv.statesCounter = 1
  ids : ∀ p ∈ dv.peers, 0 < p.id ∧ p.id < dv.peersCounter
  pos : 0 < dv.peersCounter
  nodup : (dv.peers.map (·.s)).Nodup ∧ (dv.peers.map (·.id)).Nodup

variable [Hashes] [NoiseCrypto]

theorem good_create (sk : B32) : Good sk (deviceCreate prologue sk) :=
  ⟨rfl, rfl, rfl, rfl, by simp [deviceCreate], show (0 : UInt32) < 1 by decide, by simp [deviceCreate]⟩

theorem good_add {sk : B32} {dv : Device} (g : Good sk dv) (rs : B32) : Good sk (deviceAddPeer dv rs).2 := by
  obtain ⟨-, h1, h2, h3⟩ := Props.C60_add_peer g.ids g.pos g.nodup rs
  have : (deviceAddPeer dv rs).2.spriv = dv.spriv ∧ (deviceAddPeer dv rs).2.spub = dv.spub ∧
      (deviceAddPeer dv rs).2.prologue = dv.prologue ∧ (deviceAddPeer dv rs).2.statesCounter = dv.statesCounter := by
    unfold deviceAddPeer
    split <;> exact ⟨rfl, rfl, rfl, rfl⟩
  exact ⟨this.1.trans g.spriv, this.2.1.trans g.spub, this.2.2.1.trans g.prologue, this.2.2.2.trans g.states, h1, h2, h3⟩

/-- Whatever the file contains, the device is as before but for peers whose keys stand at the beginning of lines. -/
theorem load_good {sk : B32} (grow : ℕ → ℕ) : ∀ (ls : List Bytes) (buf : Buf) (dv dv' : Device), Good sk dv →
    load grow ls buf dv = .ok dv' →
    Good sk dv' ∧ ∀ p ∈ dv'.peers, p ∈ dv.peers ∨ ∃ l ∈ ls, l.take 43 = chars p.s
  | [], _, dv, dv', g, e => by
    cases e
    exact ⟨g, fun p hp => Or.inl hp⟩
  | l :: ls, buf, dv, dv', g, e => by
    rw [load] at e
    simp only [] at e
    by_cases hk : keyEnd l ≠ 44
    · rw [if_pos hk] at e
      cases e
      exact ⟨g, fun p hp => Or.inl hp⟩
    · rw [if_neg hk] at e
      cases hb : base642bin 32 (l.take 44) with
      | none =>
        rw [hb] at e
        cases e
        exact ⟨g, fun p hp => Or.inl hp⟩
      | some bin =>
        rw [hb] at e
        rw [not_not] at hk
        obtain ⟨name, e1, e⟩ := C.bind_eq_ok.mp e
        obtain ⟨key, e2, e⟩ := C.bind_eq_ok.mp e
        have hlen : 44 ≤ l.length := by
          have := List.IsPrefix.length_le (List.takeWhile_prefix (l := l) (fun c : UInt8 => decide (c ≠ 32)))
          unfold keyEnd at hk
          omega
        have hkey : l.take 43 = chars key := by
          unfold whole at e2
          split at e2
          · rename_i h32
            obtain ⟨k, hk1, hk2⟩ := base642bin_whole (by rw [List.length_take]; omega) hb h32
            rw [List.take_take] at hk2
            cases e2
            have : k = ⟨bin.toArray, by simpa using h32⟩ := Vector.toList_inj.1 (by rw [hk1]; simp [Vector.toList])
            rw [← this]
            exact hk2
          · exact absurd e2 (by simp)
        have ga := good_add g key
        split at e
        · cases e
          exact ⟨g, fun p hp => Or.inl hp⟩
        · rename_i i dv1 ea
          rw [ea] at ga
          obtain ⟨g', hp'⟩ := load_good grow ls _ _ _ ga e
          refine ⟨g', fun p hp => ?_⟩
          rcases hp' p hp with h | ⟨l', hl', h⟩
          · have hps : dv1.peers = ⟨i, key⟩ :: dv.peers := by
              obtain ⟨⟨-, -, h3⟩, -⟩ := Props.C60_add_peer g.ids g.pos g.nodup key
              rw [ea] at h3
              exact (h3 i rfl).1
            rw [hps] at h
            rcases List.mem_cons.mp h with rfl | h
            · exact Or.inr ⟨l, by simp, hkey⟩
            · exact Or.inl h
          · exact Or.inr ⟨l', by simp [hl'], h⟩

/-- Lines of peers with different keys are all loaded. -/
theorem load_entries (grow : ℕ → ℕ) : ∀ (es : List Entry), (∀ e ∈ es, Plain e.2) → ∀ (buf : Buf) (dv : Device),
    (es.map (·.1)).Nodup → (∀ e ∈ es, e.1 ∉ dv.peers.map (·.s)) → dv.peersCounter.toNat + es.length ≤ 4294967295 →
    ∃ dv' : Device, (∀ k, k ∈ dv'.peers.map (·.s) ↔ k ∈ es.map (·.1) ∨ k ∈ dv.peers.map (·.s)) ∧
      ∃ buf', ∀ ls, load grow (es.map line ++ ls) buf dv = load grow ls buf' dv'
  | [], _, buf, dv, _, _, _ => ⟨dv, by simp, buf, fun _ => rfl⟩
  | (key, name) :: es, hp, buf, dv, hd, hne, hc => by
    obtain ⟨X, hX⟩ := load_key grow key (hp (key, name) (by simp)).2 buf dv
    have hnot : key ∉ dv.peers.map (·.s) := hne (key, name) (by simp)
    simp only [List.map_cons, List.nodup_cons] at hd
    simp only [List.length_cons] at hc
    have hadd : deviceAddPeer dv key =
        (some dv.peersCounter, { dv with peers := ⟨dv.peersCounter, key⟩ :: dv.peers, peersCounter := dv.peersCounter + 1 }) := by
      unfold deviceAddPeer
      rw [if_neg]
      rintro (h | h)
      · rw [h] at hc
        have : (4294967295 : UInt32).toNat = 4294967295 := rfl
        omega
      · rw [List.find?_isSome] at h
        obtain ⟨p, hp, h⟩ := h
        exact hnot (List.mem_map.mpr ⟨p, hp, by simpa using h⟩)
    obtain ⟨dv', h1, buf', h2⟩ := load_entries grow es (fun e he => hp e (by simp [he])) X
      { dv with peers := ⟨dv.peersCounter, key⟩ :: dv.peers, peersCounter := dv.peersCounter + 1 } hd.2
      (by
        intro e he hm
        rcases List.mem_cons.mp hm with h | h
        · exact hd.1 (List.mem_map.mpr ⟨e, he, h⟩)
        · exact hne e (by simp [he]) h)
      (by
        show (dv.peersCounter + 1).toNat + _ ≤ _
        have : (dv.peersCounter + 1).toNat = dv.peersCounter.toNat + 1 := by
          rw [UInt32.toNat_add]
          have : (1 : UInt32).toNat = 1 := rfl
          omega
        omega)
    refine ⟨dv', fun k => ?_, buf', fun ls => ?_⟩
    · rw [h1]
      simp only [List.map_cons, List.mem_cons]
      tauto
    · rw [List.map_cons, List.cons_append, hX, hadd]
      exact h2 ls

theorem load_prefix (grow : ℕ → ℕ) (ls ls' : List Bytes) (hls : ∀ buf dv, load grow ls buf dv = load grow ls' buf dv) :
    ∀ (es : List Entry), (∀ e ∈ es, Plain e.2) →
    ∀ buf dv, load grow (es.map line ++ ls) buf dv = load grow (es.map line ++ ls') buf dv
  | [], _, buf, dv => hls buf dv
  | (key, name) :: es, hp, buf, dv => by
    obtain ⟨X, hX⟩ := load_key grow key (hp (key, name) (by simp)).2 buf dv
    rw [List.map_cons, List.cons_append, List.cons_append, hX, hX]
    split
    · rfl
    · exact load_prefix grow ls ls' hls es (fun e he => hp e (by simp [he])) X _

/-! ### The messages -/

theorem send_eq {em : Encap} {sn sn' : Session} {m : Bytes} (h : sessionWrite em sn = (.success, some m, sn')) :
    send em sn = some (m, sn') := by
  rw [send, h]

theorem receive_eq {peers : List Peer} {sn sn' : Session} {m : Bytes} {em : Encap}
    (h : sessionRead peers sn m = (.success, some em, sn')) : receive peers sn m = some (em, sn') := by
  rw [receive, h]

theorem transport_pass {peers : List Peer} {r i : Session} {tr ti : TS} (hr : r.st = .transport tr) (hi : i.st = .transport ti)
    (hk : tr.sendKey = ti.recvKey) (hn : tr.sendNonce = 0) (hn' : ti.recvNonce = 0) {msg : Bytes} (hl : msg.length ≤ 4294967279) :
    ∃ c r' i', sessionWrite (pack 5 msg) r = (.success, some c, r') ∧
      sessionRead peers i c = (.success, some ⟨.auth 2, msg⟩, i') := by
  have hs : secOk 5 ⟨.conf 5, msg⟩ = true := by
    unfold secOk
    split <;> simp
  refine ⟨aeadEnc ti.recvKey 0 [] msg, { r with st := .transport { tr with sendNonce := 0 + 1 } },
    { i with st := .transport { ti with recvNonce := 0 + 1 } }, ?_, ?_⟩
  · simp [sessionWrite, hr, hs, transportWrite, pack, hn, hk, hl]
  · simp [sessionRead, hi, transportRead, NoiseCrypto.enc_length, dec_enc, hn', hl]

/-- The first two messages are treated the same whoever the peers are. -/
theorem sessionRead_step0 {role : Role} {pid : UInt32} {s : HS} (h0 : s.step = 0) (peers peers' : List Peer) (m : Bytes) :
    sessionRead peers ⟨role, pid, .handshake s⟩ m = sessionRead peers' ⟨role, pid, .handshake s⟩ m := by
  unfold sessionRead handshakeRead
  simp only [h0]
  cases role <;> simp

theorem respRead0_step {s s' : HS} {m p : Bytes} {l : ℕ} (h : respRead0 s m l = (.ok p, s')) : s'.step = s.step + 1 := by
  unfold respRead0 at h
  simp only [] at h
  repeat' split at h
  all_goals (rw [Prod.mk.injEq] at h; first | cases h.1 | skip)
  all_goals rw [← h.2]

theorem respWrite1_step {s s' : HS} {m p : Bytes} {l : ℕ} (h : respWrite1 s m l = (.ok p, s')) : s'.step = s.step + 1 := by
  unfold respWrite1 at h
  simp only [] at h
  repeat' split at h
  all_goals (rw [Prod.mk.injEq] at h; first | cases h.1 | skip)
  all_goals rw [← h.2]

theorem read_step0 {peers : List Peer} {pid : UInt32} {s : HS} (h0 : s.step = 0) {m : Bytes} {em : Option Encap} {sn : Session}
    (h : sessionRead peers ⟨.responder, pid, .handshake s⟩ m = (.success, em, sn)) :
    ∃ s', sn = ⟨.responder, pid, .handshake s'⟩ ∧ s'.step = 1 := by
  unfold sessionRead handshakeRead at h
  simp only [h0] at h
  cases hp : payloadLen 0 m.length with
  | none => rw [hp] at h; simp [readTurn] at h
  | some l =>
    rw [hp] at h
    rcases hr : respRead0 s m l with ⟨_ | p, s'⟩
    · simp [readTurn, hr] at h
    · simp [readTurn, hr] at h
      exact ⟨s', h.2.symm, by rw [respRead0_step hr, h0]⟩

theorem write_step1 {pid : UInt32} {s : HS} (h1 : s.step = 1) {em : Encap} {m : Option Bytes} {sn : Session}
    (h : sessionWrite em ⟨.responder, pid, .handshake s⟩ = (.success, m, sn)) :
    ∃ s', sn = ⟨.responder, pid, .handshake s'⟩ ∧ s'.step = 2 := by
  unfold sessionWrite handshakeWrite at h
  simp only [h1] at h
  cases hp : nextLen 1 em.msg.length with
  | none => rw [hp] at h; simp at h
  | some l =>
    rw [hp] at h
    by_cases hs : secOk 1 em = true
    · rcases hr : respWrite1 s em.msg l with ⟨_ | p, s'⟩
      · simp [hs, hr] at h
      · simp [hs, hr] at h
        exact ⟨s', h.2.symm, by rw [respWrite1_step hr, h1]⟩
    · simp [hs] at h

/-- A third message that is accepted from a key is rejected by a device that does not know the key. -/
theorem read_step2 {peers : List Peer} {i pid : UInt32} {k : B32} {s : HS} (h2 : s.step = 2) {m : Bytes} {em : Option Encap}
    {sn : Session} (h : sessionRead [⟨i, k⟩] ⟨.responder, pid, .handshake s⟩ m = (.success, em, sn))
    (hk : k ∉ peers.map (·.s)) : receive peers ⟨.responder, pid, .handshake s⟩ m = none := by
  have hf : ∀ k', k' = k → peers.find? (fun p => p.s == k') = none := by
    rintro _ rfl
    rw [List.find?_eq_none]
    intro p hp hpk
    exact hk (List.mem_map.mpr ⟨p, hp, by simpa using hpk⟩)
  unfold receive
  unfold sessionRead handshakeRead respRead2 at h ⊢
  simp only [h2] at h ⊢
  cases hp : payloadLen 2 m.length with
  | none => rw [hp] at h; simp [readTurn] at h
  | some l =>
    rw [hp] at h
    simp only [readTurn] at h ⊢
    by_cases hc : l ≤ 4294967215 ∧ m.length = 64 + l
    · cases hd : decryptAndHash s.cipherKey 1 s.h (m.take 48) with
      | none => simp [hc, hd] at h
      | some x =>
        by_cases hx : toB32 x.1 = k
        · simp [hc, hd, hf _ hx]
        · have : ¬ k = toB32 x.1 := fun h => hx h.symm
          simp [hc, hd, this] at h
    · simp [hc] at h

end Verif.Noise.Example
