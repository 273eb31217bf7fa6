import Verif.Proofs.PrimHs3
import Verif.Proofs.Noise
import Verif.Proofs.Toy

/-!
# Handshake and transport messages on memory

The functions of `XK.c` on bytes do what `Model/Noise.lean` says about values, and nothing else happens to the memory.
-/

namespace Verif.Props

open Prim Spec.Prim
open Noise (Role HS)

section
variable [Hashes] [NoiseCrypto] [Aead]

/-- Length of the part of a message before its payload. -/
def headLen (step : UInt32) : ℕ := if step = 2 then 48 else 32

/-- A session, its message and the frame in memory: the buffers belong to objects, those of the session hold `s`, the message
has `len` bytes and, where a split is due, there is space for the keys. -/
structure Placed (L : Layout) (m : Mem) (s : HS) (step : UInt32) (len : ℕ) : Prop where
  keys : L.Keys
  space : ∀ b, b ≠ .frame → Space m (L.ptr b) (L.len b)
  shows : Shows L m s
  step_eq : s.step = step.toNat
  message : L.len .head + L.len .body = len
  body : L.ptr .body = L.ptr .head + L.len .head
  head : headLen step ≤ len → L.len .head = headLen step
  split : step = 2 → L.len .k1 = 32 ∧ L.len .k2 = 32

/-- The buffers that a message to be sent may change. -/
def sendBufs (b : Buf) : Prop := b ∈ [Buf.cipher, .ck, .h, .head, .body, .k1, .k2]

/-- The buffers that a received message may change. -/
def recvBufs (b : Buf) : Prop := b ∈ [Buf.cipher, .ck, .h, .rs, .re, .payload, .k1, .k2]

/-- The contents of the session's buffers, of the payload, of the message and of the peers' keys. -/
def contents (s : HS) (pl a b : Option Bytes) (ps : List (ℕ × Noise.Peer)) : Buf → Option Bytes
  | .cipher => some s.cipherKey.toList
  | .ck => some s.ck.toList
  | .h => some s.h.toList
  | .spriv => some s.spriv.toList
  | .spub => some s.spub.toList
  | .epriv => some s.epriv.toList
  | .epub => some s.epub.toList
  | .rs => some s.rs.toList
  | .re => some s.re.toList
  | .payload => pl
  | .head => a
  | .body => b
  | .peer i => (ps.find? fun q => q.1 == i).map fun q => q.2.s.toList
  | _ => none

theorem contents_rel {s : HS} {pl a b : Option Bytes} {ps : List (ℕ × Noise.Peer)} : Rel (contents s pl a b ps) s := by
  constructor <;> rfl

theorem contents_sim {L : Layout} {W : Buf → Prop} {m : Mem} {s : HS} {step : UInt32} {len : ℕ} (A : Placed L m s step len)
    {pl a b : Option Bytes} {ps : List (ℕ × Noise.Peer)}
    (hpl : ∀ v, pl = some v → v.length = L.len .payload ∧ Holds m (L.ptr .payload) v)
    (ha : ∀ v, a = some v → v.length = L.len .head ∧ Holds m (L.ptr .head) v)
    (hb : ∀ v, b = some v → v.length = L.len .body ∧ Holds m (L.ptr .body) v)
    (hps : ∀ q ∈ ps, L.len (.peer q.1) = 32 ∧ Holds m (L.ptr (.peer q.1)) q.2.s.toList) :
    Sim L W m m (contents s pl a b ps) := by
  refine ⟨fun x v h => ?_, A.space, fun x h => absurd rfl h⟩
  have K := A.keys
  cases x with
  | cipher => cases h; exact ⟨by simp, by simp [K.cipher], A.shows.cipher⟩
  | ck => cases h; exact ⟨by simp, by simp [K.ck], A.shows.ck⟩
  | h => cases h; exact ⟨by simp, by simp [K.h], A.shows.h⟩
  | spriv => cases h; exact ⟨by simp, by simp [K.spriv], A.shows.spriv⟩
  | spub => cases h; exact ⟨by simp, by simp [K.spub], A.shows.spub⟩
  | epriv => cases h; exact ⟨by simp, by simp [K.epriv], A.shows.epriv⟩
  | epub => cases h; exact ⟨by simp, by simp [K.epub], A.shows.epub⟩
  | rs => cases h; exact ⟨by simp, by simp [K.rs], A.shows.rs⟩
  | re => cases h; exact ⟨by simp, by simp [K.re], A.shows.re⟩
  | payload => exact ⟨by simp, hpl v h⟩
  | head => exact ⟨by simp, ha v h⟩
  | body => exact ⟨by simp, hb v h⟩
  | k1 => cases h
  | k2 => cases h
  | peer i =>
    simp only [contents, Option.map_eq_some_iff] at h
    obtain ⟨q, hq, rfl⟩ := h
    have h1 := List.mem_of_find?_eq_some hq
    have h2 : q.1 = i := by simpa using List.find?_some hq
    obtain ⟨h3, h4⟩ := hps q h1
    rw [h2] at h3 h4
    exact ⟨by simp, by simp [h3], h4⟩
  | frame => cases h

theorem holds_unique {m : Mem} {a : ℕ} {x y : Bytes} (h : Holds m a x) (h' : Holds m a y) (hl : x.length = y.length) :
    x = y := by
  refine List.ext_getElem hl fun i h1 h2 => ?_
  have e1 := h i h1
  rw [h' i h2] at e1
  exact (Cell.val.inj e1).symm

theorem contents_peer {L : Layout} {m : Mem} {s : HS} {pl a b : Option Bytes} {ps : List (ℕ × Noise.Peer)}
    (hps : ∀ q ∈ ps, L.len (.peer q.1) = 32 ∧ Holds m (L.ptr (.peer q.1)) q.2.s.toList) :
    ∀ q ∈ ps, contents s pl a b ps (.peer q.1) = some q.2.s.toList := by
  intro q hq
  simp only [contents, Option.map_eq_some_iff]
  cases hf : ps.find? fun q' => q'.1 == q.1 with
  | none =>
    rw [List.find?_eq_none] at hf
    exact absurd (hf q hq) (by simp)
  | some q' =>
    refine ⟨q', rfl, ?_⟩
    have h1 := List.mem_of_find?_eq_some hf
    have h2 : q'.1 = q.1 := by simpa using List.find?_some hf
    have h3 := (hps q' h1).2
    rw [h2] at h3
    exact holds_unique h3 (hps q hq).2 (by simp)

theorem _root_.Verif.Spec.Prim.Shows.stuck {L : Layout} {m : Mem} {s : HS} (h : Shows L m s) : Shows L m { s with step := 4 } :=
  ⟨h.cipher, h.ck, h.h, h.spriv, h.spub, h.epriv, h.epub, h.rs, h.re⟩

theorem initWrite0_step {s s' : HS} {pl msg : Bytes} {n : ℕ} (h : Noise.initWrite0 s pl n = (.ok msg, s')) :
    s'.step = s.step + 1 := by
  unfold Noise.initWrite0 at h
  split at h
  · cases h
  · dsimp only at h
    split at h <;> cases h
    rfl

theorem initWrite2_step {s s' : HS} {pl msg : Bytes} {n : ℕ} (h : Noise.initWrite2 s pl n = (.ok msg, s')) :
    s'.step = s.step + 1 := by
  unfold Noise.initWrite2 at h
  split at h
  · cases h
  · dsimp only at h
    split at h <;> cases h
    rfl

theorem respWrite1_step {s s' : HS} {pl msg : Bytes} {n : ℕ} (h : Noise.respWrite1 s pl n = (.ok msg, s')) :
    s'.step = s.step + 1 := by
  unfold Noise.respWrite1 at h
  split at h
  · cases h
  · dsimp only at h
    split at h <;> cases h
    rfl

theorem initRead1_step {s s' : HS} {inp p : Bytes} {n : ℕ} (h : Noise.initRead1 s inp n = (.ok p, s')) :
    s'.step = s.step + 1 := by
  unfold Noise.initRead1 at h
  split at h
  · cases h
  · dsimp only at h
    split at h
    · cases h
    · split at h <;> cases h
      rfl

theorem respRead0_step {s s' : HS} {inp p : Bytes} {n : ℕ} (h : Noise.respRead0 s inp n = (.ok p, s')) :
    s'.step = s.step + 1 := by
  unfold Noise.respRead0 at h
  split at h
  · cases h
  · dsimp only at h
    split at h
    · cases h
    · split at h <;> cases h
      rfl

theorem respRead2_step {s s' : HS} {inp : Bytes} {r : Bytes × UInt32} {n : ℕ} {ps : List Noise.Peer}
    (h : Noise.respRead2 ps s inp n = (.ok r, s')) : s'.step = s.step + 1 := by
  unfold Noise.respRead2 at h
  split at h
  · cases h
  · split at h
    · cases h
    · dsimp only at h
      split at h
      · cases h
      · split at h
        · cases h
        · split at h <;> cases h
          rfl

variable {L : Layout} {m : Mem} {s : HS} {role : Role} {pid step : UInt32}

/-- `state_handshake_write` on memory: for every role, step, length and payload the message in `out`, the buffers of the
session and the keys of the transport state are those of the session as a value, no undefined behaviour happens, and apart
from these buffers only zeros are left in the frame. -/
theorem C88_write (E : SameCipher) {pl : Bytes} {plen outlen : UInt32} (A : Placed L m s step outlen.toNat)
    (hp : Holds m (L.ptr .payload) pl) (hpl : pl.length = L.len .payload) (hlen : plen.toNat = pl.length) :
    ∃ r m', Prim.handshakeWrite (L.ptr .frame) role step L.ptrs plen (L.ptr .payload) outlen (L.ptr .head) (L.ptr .k1)
        (L.ptr .k2) m = .ok (r, m') ∧
      Confined L sendBufs m m' ∧
      match Noise.handshakeWrite ⟨role, pid, .handshake s⟩ pl outlen.toNat with
      | (.error e, sn) => r = .error e ∧ StuckIs L m' sn.st
      | (.ok msg, sn) => ∃ n, r = .ok n ∧ Holds m' (L.ptr .head) msg ∧ StateIs L m' n sn.st := by
  have S := contents_sim (W := sendBufs) A (pl := some pl) (a := none) (b := none) (ps := [])
    (fun v h => by cases h; exact ⟨hpl, hp⟩) (fun v h => by cases h) (fun v h => by cases h) (fun q h => by cases h)
  have B : Sending L sendBufs m m (contents s (some pl) none none []) s pl plen :=
    ⟨S, A.keys, E, contents_rel, rfl, hlen, by simp [sendBufs], by simp [sendBufs], by simp [sendBufs], by simp [sendBufs],
      by simp [sendBufs]⟩
  -- the end of a message
  have fin : ∀ (x : P (Option Noise.Err)) (v : Noise.HRes Bytes), step.toNat < 3 → WroteIs L sendBufs m v (x m) →
      (∀ msg s', v = (.ok msg, s') → s'.step = step.toNat + 1) →
      ∃ r m', (x >>= fun r => finish (L.ptr .frame) role step L.ptrs (L.ptr .k1) (L.ptr .k2) r) m = .ok (r, m') ∧
        Confined L sendBufs m m' ∧
        match (match v with
          | (.error e, s') => ((.error e, ⟨role, pid, .handshake { s' with step := 4 }⟩) :
              Except Noise.Err Bytes × Noise.Session)
          | (.ok out, s') => (.ok out, ⟨role, pid, if step.toNat = 2 then .transport (Noise.split role s') else .handshake s'⟩)) with
        | (.error e, sn) => r = .error e ∧ StuckIs L m' sn.st
        | (.ok msg, sn) => ∃ n, r = .ok n ∧ Holds m' (L.ptr .head) msg ∧ StateIs L m' n sn.st := by
    intro x v h3 hw hst
    rcases v with ⟨e | msg, s'⟩
    · obtain ⟨m', c', hx, S', R'⟩ := hw
      exact ⟨_, m', by rw [bind_ok hx]; rfl, S'.conf, rfl, rfl, (S'.shows R').stuck⟩
    · obtain ⟨m', c', a, b, hx, S', R', ha, hb, rfl⟩ := hw
      obtain ⟨n, m2, c2, hf, S2, hc, hst2⟩ := finish_run S' A.keys R' (role := role) h3 (hst _ _ rfl)
        (fun h => ⟨(A.split h).1, (A.split h).2, by simp [sendBufs], by simp [sendBufs]⟩)
      refine ⟨_, m2, by rw [bind_ok hx, hf], S2.conf, n, rfl, ?_, hst2⟩
      obtain ⟨-, a1, a2⟩ := S2.held .head a (by rw [hc _ (by simp) (by simp), ha])
      obtain ⟨-, -, b2⟩ := S2.held .body b (by rw [hc _ (by simp) (by simp), hb])
      rw [holds_append, a1, ← A.body]
      exact ⟨a2, b2⟩
  unfold Prim.handshakeWrite Noise.handshakeWrite
  simp only [A.step_eq]
  by_cases h3 : step ≥ 3
  · rw [if_pos h3, if_pos (show step.toNat ≥ 3 from UInt32.le_iff_toNat_le.1 h3)]
    exact ⟨_, m, rfl, fun x h => absurd rfl h, rfl, rfl, A.shows.stuck⟩
  · have h3' : step.toNat < 3 := by
      rw [ge_iff_le, UInt32.le_iff_toNat_le] at h3
      simpa using h3
    rw [if_neg h3, if_neg (show ¬ step.toNat ≥ 3 by omega)]
    have h0 : step = 0 ↔ step.toNat = 0 := by rw [← UInt32.toNat_inj]; rfl
    have h2 : step = 2 ↔ step.toNat = 2 := by rw [← UInt32.toNat_inj]; rfl
    have hm0 : step % 2 = 0 ↔ step.toNat % 2 = 0 := by rw [← UInt32.toNat_inj, UInt32.toNat_mod]; rfl
    have lay : ∀ k, headLen step = k → outlen.toNat = k + 16 + pl.length →
        L.len .head = k ∧ L.ptr .body = L.ptr .head + k ∧ L.len .body = pl.length + 16 := by
      intro k hk ho
      have e := A.head (by omega)
      have e2 := A.message
      have e3 := A.body
      rw [e] at e2 e3
      exact ⟨by omega, by rw [e3, hk], by omega⟩
    cases role with
    | initiator =>
      simp only
      by_cases hm : step.toNat % 2 = 0
      · rw [if_neg (not_not.2 (hm0.2 hm)), if_neg (not_not.2 hm)]
        by_cases hz : step.toNat = 0
        · rw [if_pos (h0.2 hz), if_pos hz]
          refine fin _ _ h3' (initWrite0_run B fun ho => lay 32 ?_ ho) fun msg s' h => A.step_eq ▸ initWrite0_step h
          rw [headLen, if_neg (by rw [h2]; omega)]
        · rw [if_neg (mt h0.1 hz), if_neg hz]
          refine fin _ _ h3' (initWrite2_run B fun ho => lay 48 ?_ ho) fun msg s' h => A.step_eq ▸ initWrite2_step h
          rw [headLen, if_pos (by rw [h2]; omega)]
      · rw [if_pos (mt hm0.1 hm), if_pos hm]
        exact ⟨_, m, rfl, fun x h => absurd rfl h, rfl, rfl, A.shows.stuck⟩
    | responder =>
      simp only
      by_cases hm : step.toNat % 2 = 0
      · rw [if_pos (hm0.2 hm), if_pos hm]
        exact ⟨_, m, rfl, fun x h => absurd rfl h, rfl, rfl, A.shows.stuck⟩
      · rw [if_neg (mt hm0.1 hm), if_neg hm]
        refine fin _ _ h3' (respWrite1_run B fun ho => lay 32 ?_ ho) fun msg s' h => A.step_eq ▸ respWrite1_step h
        rw [headLen, if_neg (by rw [h2]; omega)]

/-- `state_handshake_read` on memory: for every role, step, length and message, also a forged one, the plaintext, the buffers
of the session, the peer that was found and the keys of the transport state are those of the session as a value, no undefined
behaviour happens, and apart from these buffers only zeros are left in the frame. At the responder's last message the buffer
of the peer's static key is still zero, as `session_create_responder` has left it. -/
theorem C88_read (E : SameCipher) {msg : Bytes} {olen inlen : UInt32} (A : Placed L m s step inlen.toNat)
    (hmsg : Holds m (L.ptr .head) msg) (hin : msg.length = inlen.toNat) (hol : L.len .payload = olen.toNat)
    {ps : List (ℕ × Noise.Peer)} (hps : ∀ q ∈ ps, L.len (.peer q.1) = 32 ∧ Holds m (L.ptr (.peer q.1)) q.2.s.toList)
    (hrs : role = .responder → step = 2 → s.rs = zero32) :
    ∃ r i m', Prim.handshakeRead (L.ptr .frame) role step L.ptrs (ps.map fun q => (L.ptr (.peer q.1), q.2.id)) pid olen
        (L.ptr .payload) inlen (L.ptr .head) (L.ptr .k1) (L.ptr .k2) m = .ok ((r, i), m') ∧
      Confined L recvBufs m m' ∧
      match Noise.handshakeRead (ps.map (·.2)) ⟨role, pid, .handshake s⟩ msg olen.toNat with
      | (.error e, sn) => r = .error e ∧ StuckIs L m' sn.st
      | (.ok p, sn) => ∃ n, r = .ok n ∧ i = sn.pid ∧ Holds m' (L.ptr .payload) p ∧ StateIs L m' n sn.st := by
  obtain ⟨a, b, rfl, hal⟩ : ∃ a b, msg = a ++ b ∧ a.length = L.len .head :=
    ⟨msg.take (L.len .head), msg.drop (L.len .head), (List.take_append_drop _ _).symm, by
      rw [List.length_take]; have := A.message; omega⟩
  rw [holds_append, hal, ← A.body] at hmsg
  rw [List.length_append] at hin
  have S := contents_sim (W := recvBufs) A (pl := none) (a := some a) (b := some b) (ps := ps)
    (fun v h => by cases h) (fun v h => by cases h; exact ⟨hal, hmsg.1⟩)
    (fun v h => by cases h; exact ⟨by have := A.message; omega, hmsg.2⟩) hps
  have B : Receiving L recvBufs m m (contents s none (some a) (some b) ps) s a b olen :=
    ⟨S, A.keys, E, contents_rel, rfl, rfl, hol, by simp [recvBufs], by simp [recvBufs], by simp [recvBufs],
      by simp [recvBufs], by simp [recvBufs], by simp [recvBufs]⟩
  -- the end of a message
  have fin : ∀ (x : P (Option Noise.Err × UInt32)) (v : Noise.HRes (Bytes × UInt32)), step.toNat < 3 →
      Read2Is L recvBufs m v (x m) → (∀ p s', v = (.ok p, s') → s'.step = step.toNat + 1) →
      ∃ r i m', (x >>= fun r => finish (L.ptr .frame) role step L.ptrs (L.ptr .k1) (L.ptr .k2) r.1 >>= fun n =>
          pure (n, r.2)) m = .ok ((r, i), m') ∧
        Confined L recvBufs m m' ∧
        match (match v with
          | (.error e, s') => ((.error e, ⟨role, pid, .handshake { s' with step := 4 }⟩) :
              Except Noise.Err Bytes × Noise.Session)
          | (.ok (p, i), s') => (.ok p, ⟨role, i, if step.toNat = 2 then .transport (Noise.split role s') else .handshake s'⟩)) with
        | (.error e, sn) => r = .error e ∧ StuckIs L m' sn.st
        | (.ok p, sn) => ∃ n, r = .ok n ∧ i = sn.pid ∧ Holds m' (L.ptr .payload) p ∧ StateIs L m' n sn.st := by
    intro x v h3 hw hst
    rcases v with ⟨e | ⟨p, i⟩, s'⟩
    · obtain ⟨i, m', c', hx, S', R'⟩ := hw
      exact ⟨_, i, m', by rw [bind_ok hx]; rfl, S'.conf, rfl, rfl, (S'.shows R').stuck⟩
    · obtain ⟨m', c', hx, S', R', hp⟩ := hw
      obtain ⟨n, m2, c2, hf, S2, hc, hst2⟩ := finish_run S' A.keys R' (role := role) h3 (hst _ _ rfl)
        (fun h => ⟨(A.split h).1, (A.split h).2, by simp [recvBufs], by simp [recvBufs]⟩)
      refine ⟨_, i, m2, by rw [bind_ok hx, bind_ok hf]; rfl, S2.conf, n, rfl, rfl, ?_, hst2⟩
      exact (S2.held .payload p (by rw [hc _ (by simp) (by simp), hp])).2.2
  -- the messages that do not find a peer
  have fin' : ∀ (x : P (Option Noise.Err)) (v : Noise.HRes Bytes), step.toNat < 3 → ReadIs L recvBufs m v (x m) →
      (∀ p s', v = (.ok p, s') → s'.step = step.toNat + 1) →
      ∃ r i m', (x >>= fun r => finish (L.ptr .frame) role step L.ptrs (L.ptr .k1) (L.ptr .k2) r >>= fun n =>
          pure (n, pid)) m = .ok ((r, i), m') ∧
        Confined L recvBufs m m' ∧
        match (match (match v with
            | (.error e, s') => ((.error e, s') : Noise.HRes (Bytes × UInt32))
            | (.ok p, s') => (.ok (p, pid), s')) with
          | (.error e, s') => ((.error e, ⟨role, pid, .handshake { s' with step := 4 }⟩) :
              Except Noise.Err Bytes × Noise.Session)
          | (.ok (p, i), s') => (.ok p, ⟨role, i, if step.toNat = 2 then .transport (Noise.split role s') else .handshake s'⟩)) with
        | (.error e, sn) => r = .error e ∧ StuckIs L m' sn.st
        | (.ok p, sn) => ∃ n, r = .ok n ∧ i = sn.pid ∧ Holds m' (L.ptr .payload) p ∧ StateIs L m' n sn.st := by
    intro x v h3 hw hst
    rcases v with ⟨e | p, s'⟩
    · obtain ⟨m', c', hx, S', R'⟩ := hw
      exact ⟨_, pid, m', by rw [bind_ok hx]; rfl, S'.conf, rfl, rfl, (S'.shows R').stuck⟩
    · obtain ⟨m', c', hx, S', R', hp⟩ := hw
      obtain ⟨n, m2, c2, hf, S2, hc, hst2⟩ := finish_run S' A.keys R' (role := role) h3 (hst _ _ rfl)
        (fun h => ⟨(A.split h).1, (A.split h).2, by simp [recvBufs], by simp [recvBufs]⟩)
      refine ⟨_, pid, m2, by rw [bind_ok hx, bind_ok hf]; rfl, S2.conf, n, rfl, rfl, ?_, hst2⟩
      exact (S2.held .payload p (by rw [hc _ (by simp) (by simp), hp])).2.2
  unfold Prim.handshakeRead Noise.handshakeRead
  simp only [A.step_eq]
  by_cases h3 : step ≥ 3
  · rw [if_pos h3, if_pos (show step.toNat ≥ 3 from UInt32.le_iff_toNat_le.1 h3)]
    exact ⟨_, pid, m, rfl, fun x h => absurd rfl h, rfl, rfl, A.shows.stuck⟩
  · have h3' : step.toNat < 3 := by
      rw [ge_iff_le, UInt32.le_iff_toNat_le] at h3
      simpa using h3
    rw [if_neg h3, if_neg (show ¬ step.toNat ≥ 3 by omega)]
    have h0 : step = 0 ↔ step.toNat = 0 := by rw [← UInt32.toNat_inj]; rfl
    have h2 : step = 2 ↔ step.toNat = 2 := by rw [← UInt32.toNat_inj]; rfl
    have hm1 : step % 2 = 1 ↔ step.toNat % 2 = 1 := by rw [← UInt32.toNat_inj, UInt32.toNat_mod]; rfl
    have lay : ∀ k, headLen step = k → inlen.toNat = k + 16 + olen.toNat →
        a.length = k ∧ L.ptr .body = L.ptr .head + k := by
      intro k hk ho
      have e := A.head (by omega)
      have e3 := A.body
      rw [e] at e3
      exact ⟨by omega, by rw [e3, hk]⟩
    have hin' : inlen.toNat = (a ++ b).length := by rw [List.length_append, hin]
    cases role with
    | initiator =>
      simp only
      by_cases hm : step.toNat % 2 = 1
      · rw [if_neg (not_not.2 (hm1.2 hm)), if_neg (not_not.2 hm)]
        refine fin' _ _ h3' (initRead1_run B hin' fun ho => lay 32 ?_ ho) fun p s' h => A.step_eq ▸ initRead1_step h
        rw [headLen, if_neg (by rw [h2]; omega)]
      · rw [if_pos (mt hm1.1 hm), if_pos hm]
        exact ⟨_, pid, m, rfl, fun x h => absurd rfl h, rfl, rfl, A.shows.stuck⟩
    | responder =>
      simp only
      by_cases hm : step.toNat % 2 = 1
      · rw [if_pos (hm1.2 hm), if_pos hm]
        exact ⟨_, pid, m, rfl, fun x h => absurd rfl h, rfl, rfl, A.shows.stuck⟩
      · rw [if_neg (mt hm1.1 hm), if_neg hm]
        by_cases hz : step.toNat = 0
        · rw [if_pos (h0.2 hz), if_pos hz]
          refine fin' _ _ h3' (respRead0_run B hin' fun ho => lay 32 ?_ ho) fun p s' h => A.step_eq ▸ respRead0_step h
          rw [headLen, if_neg (by rw [h2]; omega)]
        · rw [if_neg (mt h0.1 hz), if_neg hz]
          have h22 : step = 2 := h2.2 (by omega)
          refine fin _ _ h3' (respRead2_run B hin' (fun ho => lay 48 ?_ ho) (hrs rfl h22) (contents_peer hps))
            fun p s' h => A.step_eq ▸ respRead2_step h
          rw [headLen, if_pos h22]

/-! ## Transport messages -/

/-- `state_transport_write` on memory: the ciphertext of the session as a value is written, the counter grows by one and the
nonce is erased from the frame; after an error the memory is as before. -/
theorem C89_write (E : SameCipher) {t : Noise.TS} {p : Bytes} {plen clen : UInt32} {sp key pt ct : ℕ}
    (hk : Holds m key t.sendKey.toList) (hp : Holds m pt p) (hlen : plen.toNat = p.length)
    (hs : Space m ct clen.toNat) (ak : Apart sp 12 key 32) (ap : Apart sp 12 pt p.length)
    (ac : Apart sp 12 ct clen.toNat) :
    ∃ r m', Prim.transportWrite sp key t.sendNonce plen pt clen ct m = .ok (r, m') ∧
      match Noise.transportWrite ⟨role, pid, .transport t⟩ p clen.toNat with
      | (.error e, sn) => r = .error e ∧ m' = m ∧ sn = ⟨role, pid, .transport t⟩
      | (.ok c, sn) => ∃ n, r = .ok n ∧ m' = cleared sp 12 (wrote ct c m) ∧ n.toNat = t.sendNonce.toNat + 1 ∧
          sn = ⟨role, pid, .transport { t with sendNonce := n }⟩ := by
  have hi := size_iff' (b := clen) hlen
  unfold Prim.transportWrite Noise.transportWrite
  simp only
  by_cases hsz : p.length ≤ 4294967279 ∧ clen.toNat = p.length + 16
  · rw [if_neg (not_not.2 hsz), if_neg (not_not.2 (hi.2 hsz))]
    by_cases hn : t.sendNonce ≥ 18446744073709551615
    · rw [if_pos hn, if_pos hn]
      exact ⟨_, m, rfl, rfl, rfl, rfl⟩
    · rw [if_neg hn, if_neg hn]
      rw [hsz.2] at hs ac
      have h := aeadEncrypt_run (sp := sp) (aad := 0) (aadLen := 0) (nc := t.sendNonce) hk (by simp) (holds_nil (a := 0)) rfl
        hp hlen hs ak (Or.inr (Or.inl rfl)) ap ac
      rw [← E.1] at h
      refine ⟨_, _, by rw [bind_ok h]; rfl, _, rfl, rfl, ?_, rfl⟩
      rw [ge_iff_le, UInt64.le_iff_toNat_le] at hn
      rw [UInt64.toNat_add]
      exact Nat.mod_eq_of_lt (by simp at hn ⊢; omega)
  · rw [if_pos hsz, if_pos (mt hi.1 hsz)]
    exact ⟨_, m, rfl, rfl, rfl, rfl⟩

/-- `state_transport_read` on memory: the plaintext of the session as a value is written and the counter grows by one. After a
failed decryption there are zeros in place of the plaintext and the counter is as before, after other errors the memory is
as before. -/
theorem C89_read (E : SameCipher) {t : Noise.TS} {c : Bytes} {plen clen : UInt32} {sp key pt ct : ℕ}
    (hk : Holds m key t.recvKey.toList) (hc : Holds m ct c) (hlen : clen.toNat = c.length)
    (hs : Space m pt plen.toNat) (ak : Apart sp 12 key 32) (ac : Apart sp 12 ct c.length)
    (ap : Apart sp 12 pt plen.toNat) :
    ∃ r m', Prim.transportRead sp key t.recvNonce plen pt clen ct m = .ok (r, m') ∧
      match Noise.transportRead ⟨role, pid, .transport t⟩ c plen.toNat with
      | (.error e, sn) => r = .error e ∧ sn = ⟨role, pid, .transport t⟩ ∧
          m' = if e = .decryptError then cleared sp 12 (cleared pt plen.toNat m) else m
      | (.ok p, sn) => ∃ n, r = .ok n ∧ p.length = plen.toNat ∧ m' = cleared sp 12 (wrote pt p m) ∧
          n.toNat = t.recvNonce.toNat + 1 ∧ sn = ⟨role, pid, .transport { t with recvNonce := n }⟩ := by
  have hi := size_iff' (a := plen) (b := clen) rfl
  unfold Prim.transportRead Noise.transportRead
  simp only
  rw [← hlen]
  by_cases hsz : plen.toNat ≤ 4294967279 ∧ clen.toNat = plen.toNat + 16
  · rw [if_neg (not_not.2 hsz), if_neg (not_not.2 (hi.2 hsz))]
    by_cases hn : t.recvNonce ≥ 18446744073709551615
    · rw [if_pos hn, if_pos hn]
      exact ⟨_, m, rfl, rfl, rfl, rfl⟩
    · rw [if_neg hn, if_neg hn]
      have h := aeadDecrypt_run (sp := sp) (aad := 0) (aadLen := 0) (nc := t.recvNonce) hk (by simp) (holds_nil (a := 0)) rfl
        hc (by omega) (by have := clen.toNat_lt; omega) hs ak (Or.inr (Or.inl rfl)) ac ap
      rw [← E.2] at h
      cases hd : NoiseCrypto.aeadDec t.recvKey t.recvNonce [] c with
      | none =>
        rw [hd] at h
        exact ⟨_, _, by rw [bind_ok h]; rfl, rfl, rfl, rfl⟩
      | some p =>
        rw [hd] at h
        refine ⟨_, _, by rw [bind_ok h]; rfl, _, rfl, ?_, rfl, ?_, rfl⟩
        · have := NoiseCrypto.dec_length _ _ _ _ _ hd
          omega
        · rw [ge_iff_le, UInt64.le_iff_toNat_le] at hn
          rw [UInt64.toNat_add]
          exact Nat.mod_eq_of_lt (by simp at hn ⊢; omega)
  · rw [if_pos hsz, if_pos (mt hi.1 hsz)]
    exact ⟨_, m, rfl, rfl, rfl, rfl⟩

end

/-! ## A memory that meets the hypotheses -/

namespace HsExample

/-- Addresses of the buffers; the message has a payload of 5 bytes. -/
def ptr (k : ℕ) : Buf → ℕ
  | .cipher => 1000
  | .ck => 2000
  | .h => 3000
  | .spriv => 4000
  | .spub => 5000
  | .epriv => 6000
  | .epub => 7000
  | .rs => 8000
  | .re => 9000
  | .payload => 10000
  | .head => 11000
  | .body => 11000 + k
  | .k1 => 12000
  | .k2 => 13000
  | .frame => 14000
  | .peer i => 20000 + 100 * i

def len (k : ℕ) : Buf → ℕ
  | .ck => 64
  | .h => 64
  | .payload => 5
  | .head => k
  | .body => 21
  | .frame => 385
  | _ => 32

def layout (k : ℕ) (hk : k ≤ 48) : Layout where
  ptr := ptr k
  len := len k
  apart := by
    intro a b h
    cases a <;> cases b <;> first | exact absurd rfl h | (simp only [ptr, len, Apart]; omega) | skip
    rename_i i j
    have : i ≠ j := fun e => h (e ▸ rfl)
    simp only [ptr, len, Apart]
    omega

/-- Everywhere the byte 7. -/
def mem : Mem := fun _ => .val 7

def seven : B32 := Vector.replicate 32 7
def seven64 : B64 := Vector.replicate 64 7

/-- The state of a session in this memory. -/
def state (n : ℕ) : HS := ⟨n, seven, seven64, seven64, seven, seven, seven, seven, seven, seven⟩

theorem placed (step : UInt32) : Placed (layout (headLen step) (by unfold headLen; split <;> norm_num)) mem (state step.toNat) step
    (headLen step + 21) where
  keys := ⟨rfl, rfl, rfl, rfl, rfl, rfl, rfl, rfl, rfl, rfl, by simp [layout, ptr], by simp [layout, ptr]⟩
  space _ _ := sevens_space
  shows := by
    constructor <;> first | exact sevens (n := 32) | exact sevens (n := 64)
  step_eq := rfl
  message := rfl
  body := rfl
  head _ := rfl
  split _ := ⟨rfl, rfl⟩

@[reducible] def aead : Aead where
  enc _ _ _ p := p ++ List.replicate 16 0
  dec _ _ _ c := if c.drop (c.length - 16) = List.replicate 16 0 then some (c.take (c.length - 16)) else none
  enc_length := by simp
  dec_length _ _ _ c p h := Toy.noise.dec_length zero32 0 [] c p h

attribute [local instance] Toy.hashes Toy.noise aead

/-- The hypotheses of `C88_write` and `C88_read` are met by this memory, for all steps. -/
example (step : UInt32) (role : Role) : ∃ r m', Prim.handshakeWrite 14000 role step
    (layout (headLen step) (by unfold headLen; split <;> norm_num)).ptrs 5 10000 (UInt32.ofNat (headLen step + 21)) 11000 12000
    13000 mem = .ok (r, m') := by
  have h : (UInt32.ofNat (headLen step + 21)).toNat = headLen step + 21 := by unfold headLen; split <;> rfl
  obtain ⟨r, m', e, -⟩ := C88_write (L := layout (headLen step) (by unfold headLen; split <;> norm_num)) (role := role)
    (pid := 1) (pl := List.replicate 5 7) (plen := 5) ⟨fun _ _ _ _ => rfl, fun _ _ _ _ => rfl⟩ (h ▸ placed step) sevens rfl rfl
  exact ⟨r, m', e⟩

example : ∃ r i m', Prim.handshakeRead 14000 .responder 0 (layout 32 (by norm_num)).ptrs [(20000, 3)] 0 5 10000 53 11000 12000
    13000 mem = .ok ((r, i), m') := by
  obtain ⟨r, i, m', e, -⟩ := C88_read (L := layout 32 (by norm_num)) (role := .responder) (pid := 0) (step := 0)
    (s := state 0) (msg := List.replicate 53 7) (olen := 5) (inlen := 53)
    ⟨fun _ _ _ _ => rfl, fun _ _ _ _ => rfl⟩ (placed 0) sevens rfl rfl (ps := [(0, ⟨3, seven⟩)])
    (by intro q hq; rw [List.mem_singleton] at hq; subst hq; exact ⟨rfl, sevens (n := 32)⟩) (by intro _ h; exact absurd h (by decide))
  exact ⟨r, i, m', e⟩

example : ∃ r m', Prim.transportWrite 14000 12000 7 5 10000 21 11000 mem = .ok (r, m') := by
  obtain ⟨r, m', e, -⟩ := C89_write (role := .initiator) (pid := 1) (t := ⟨seven64, seven, 7, seven, 7⟩) (p := List.replicate 5 7)
    (plen := 5) (clen := 21) (sp := 14000) (key := 12000) (pt := 10000) (ct := 11000) (m := mem)
    ⟨fun _ _ _ _ => rfl, fun _ _ _ _ => rfl⟩ (sevens (n := 32)) sevens rfl sevens_space (by simp [Apart]) (by simp [Apart])
    (by simp [Apart])
  exact ⟨r, m', e⟩

end HsExample

end Verif.Props
