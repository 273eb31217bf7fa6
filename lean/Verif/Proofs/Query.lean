import Verif.Spec.Query
import Verif.Proofs.Noise

/-!
# Lemmas on the queries of Noise sessions
-/

set_option linter.unusedSectionVars false

namespace Verif.Noise

open Spec.NoiseXK (writer)
open Spec.NoiseLife NoiseCrypto

section
variable [Hashes] [NoiseCrypto]

theorem handshakeWrite_cases (r : Role) (pid : UInt32) (s : HS) (m : Bytes) (l : ℕ) :
    (∃ out s', handshakeWrite ⟨r, pid, .handshake s⟩ m l =
        (.ok out, ⟨r, pid, if s.step = 2 then .transport (split r s') else .handshake s'⟩) ∧
      s'.step = s.step + 1 ∧ s.step < 3 ∧ writer s.step = some r ∧ (l = 48 + m.length ∧ s.step < 2 ∨ l = 64 + m.length ∧ s.step = 2) ∧
      out.length = l ∧ m.length ≤ 4294967215) ∨
    ∃ e s', handshakeWrite ⟨r, pid, .handshake s⟩ m l = (.error e, ⟨r, pid, .handshake s'⟩) ∧ s'.step = 4 := by
  unfold handshakeWrite
  dsimp only
  by_cases h3 : s.step ≥ 3
  · right
    rw [if_pos h3]
    exact ⟨_, _, rfl, rfl⟩
  rw [if_neg h3]
  cases r with
  | initiator =>
    dsimp only
    by_cases h2 : s.step % 2 = 0
    · rw [if_neg (by simpa using h2)]
      by_cases h0 : s.step = 0
      · rw [if_pos h0]
        unfold initWrite0
        by_cases hl : m.length ≤ 4294967215 ∧ l = 48 + m.length
        · rw [if_neg (by simpa using hl)]
          dsimp only
          cases hd : mixDh s.epriv s.rs s.ck with
          | none => exact .inr ⟨_, _, rfl, rfl⟩
          | some q =>
            exact .inl ⟨_, _, rfl, rfl, by omega, by rw [h0]; rfl, .inl ⟨hl.2, by omega⟩, by simp [enc_length, hl.2]; omega, hl.1⟩
        · rw [if_pos (by simpa using hl)]
          exact .inr ⟨_, _, rfl, rfl⟩
      · rw [if_neg h0]
        have hs : s.step = 2 := by omega
        unfold initWrite2
        by_cases hl : m.length ≤ 4294967215 ∧ l = 64 + m.length
        · rw [if_neg (by simpa using hl)]
          dsimp only
          cases hd : mixDh s.spriv s.re s.ck with
          | none => exact .inr ⟨_, _, rfl, rfl⟩
          | some q =>
            exact .inl ⟨_, _, rfl, rfl, by omega, by rw [hs]; rfl, .inr ⟨hl.2, hs⟩, by simp [enc_length, hl.2]; omega, hl.1⟩
        · rw [if_pos (by simpa using hl)]
          exact .inr ⟨_, _, rfl, rfl⟩
    · rw [if_pos (by simpa using h2)]
      exact .inr ⟨_, _, rfl, rfl⟩
  | responder =>
    dsimp only
    by_cases h2 : s.step % 2 = 0
    · rw [if_pos h2]
      exact .inr ⟨_, _, rfl, rfl⟩
    · rw [if_neg h2]
      have hs : s.step = 1 := by omega
      unfold respWrite1
      by_cases hl : m.length ≤ 4294967215 ∧ l = 48 + m.length
      · rw [if_neg (by simpa using hl)]
        dsimp only
        cases hd : mixDh s.epriv s.re s.ck with
        | none => exact .inr ⟨_, _, rfl, rfl⟩
        | some q =>
          exact .inl ⟨_, _, rfl, rfl, by omega, by rw [hs]; rfl, .inl ⟨hl.2, by omega⟩, by simp [enc_length, hl.2]; omega, hl.1⟩
      · rw [if_pos (by simpa using hl)]
        exact .inr ⟨_, _, rfl, rfl⟩

/-- The three ways in which a write in handshake state ends -/
theorem write_cases (em : Encap) (r : Role) (pid : UInt32) (s : HS) :
    (∃ out s', sessionWrite em ⟨r, pid, .handshake s⟩ =
        (.success, some out, ⟨r, pid, if s.step = 2 then .transport (split r s') else .handshake s'⟩) ∧
      s'.step = s.step + 1 ∧ s.step < 3 ∧ writer s.step = some r ∧ nextLen s.step em.msg.length = some out.length) ∨
    (∃ e, sessionWrite em ⟨r, pid, .handshake s⟩ = (.error e, none, ⟨r, pid, .handshake s⟩) ∧ s.step < 4) ∨
    ∃ e s', sessionWrite em ⟨r, pid, .handshake s⟩ = (.stuck e, none, ⟨r, pid, .handshake s'⟩) ∧ 4 ≤ s'.step ∧
      (s' = s ∨ nextLen s.step em.msg.length ≠ none) := by
  unfold sessionWrite
  dsimp only
  by_cases h4 : s.step ≥ 4
  · rw [if_pos h4]
    exact .inr (.inr ⟨_, s, rfl, h4, .inl rfl⟩)
  rw [if_neg h4]
  cases hn : nextLen s.step em.msg.length with
  | none => exact .inr (.inl ⟨_, rfl, by omega⟩)
  | some l =>
    dsimp only
    generalize (if s.step = 0 then 2 else if s.step = 1 then 1 else 5) = cl
    by_cases hs : secOk cl em = true
    · rw [if_pos hs]
      rcases handshakeWrite_cases r pid s em.msg l with ⟨out, s', e, h1, h2, h3, -, h5, -⟩ | ⟨e, s', he, h1⟩
      · rw [e]
        exact .inl ⟨out, s', rfl, h1, h2, h3, by rw [h5]⟩
      · rw [he]
        exact .inr (.inr ⟨e, s', rfl, by omega, .inr (by simp)⟩)
    · rw [if_neg hs]
      exact .inr (.inl ⟨_, rfl, by omega⟩)

theorem handshakeRead_cases (peers : List Peer) (r : Role) (pid : UInt32) (s : HS) (m : Bytes) (l : ℕ) :
    (∃ out s' pid', handshakeRead peers ⟨r, pid, .handshake s⟩ m l =
        (.ok out, ⟨r, pid', if s.step = 2 then .transport (split r s') else .handshake s'⟩) ∧
      s'.step = s.step + 1 ∧ s.step < 3 ∧ (writer s.step).isSome ∧ writer s.step ≠ some r ∧
      (pid' = pid ∧ s.step ≠ 2 ∨ s.step = 2 ∧ ∃ p ∈ peers, p.id = pid')) ∨
    ∃ e s', handshakeRead peers ⟨r, pid, .handshake s⟩ m l = (.error e, ⟨r, pid, .handshake s'⟩) ∧ s'.step = 4 := by
  unfold handshakeRead
  dsimp only
  by_cases h3 : s.step ≥ 3
  · right
    rw [if_pos h3]
    exact ⟨_, _, rfl, rfl⟩
  rw [if_neg h3]
  cases r with
  | initiator =>
    dsimp only
    by_cases h2 : s.step % 2 = 1
    · rw [if_neg (by simpa using h2)]
      have hs : s.step = 1 := by omega
      cases hr : initRead1 s m l with
      | mk a b =>
        cases a with
        | error e => exact .inr ⟨_, _, rfl, rfl⟩
        | ok p =>
          refine .inl ⟨_, _, _, rfl, ?_, by omega, by rw [hs]; rfl, by rw [hs]; simp [writer], .inl ⟨rfl, by omega⟩⟩
          unfold initRead1 at hr
          dsimp only at hr
          split at hr
          · simp at hr
          · split at hr
            · simp at hr
            · split at hr
              · simp at hr
              · simp only [Prod.mk.injEq] at hr
                rw [← hr.2]
    · rw [if_pos (by simpa using h2)]
      exact .inr ⟨_, _, rfl, rfl⟩
  | responder =>
    dsimp only
    by_cases h2 : s.step % 2 = 1
    · rw [if_pos h2]
      exact .inr ⟨_, _, rfl, rfl⟩
    rw [if_neg h2]
    by_cases h0 : s.step = 0
    · rw [if_pos h0]
      cases hr : respRead0 s m l with
      | mk a b =>
        cases a with
        | error e => exact .inr ⟨_, _, rfl, rfl⟩
        | ok p =>
          refine .inl ⟨_, _, _, rfl, ?_, by omega, by rw [h0]; rfl, by rw [h0]; simp [writer], .inl ⟨rfl, by omega⟩⟩
          unfold respRead0 at hr
          dsimp only at hr
          split at hr
          · simp at hr
          · split at hr
            · simp at hr
            · split at hr
              · simp at hr
              · simp only [Prod.mk.injEq] at hr
                rw [← hr.2]
    · rw [if_neg h0]
      have hs : s.step = 2 := by omega
      cases hr : respRead2 peers s m l with
      | mk a b =>
        cases a with
        | error e => exact .inr ⟨_, _, rfl, rfl⟩
        | ok q =>
          obtain ⟨p, i⟩ := q
          refine .inl ⟨_, _, _, rfl, ?_, by omega, by rw [hs]; rfl, by rw [hs]; simp [writer], .inr ⟨hs, ?_⟩⟩
          · unfold respRead2 at hr
            dsimp only at hr
            split at hr
            · simp at hr
            · split at hr
              · simp at hr
              · split at hr
                · simp at hr
                · split at hr
                  · simp at hr
                  · split at hr
                    · simp at hr
                    · simp only [Prod.mk.injEq] at hr
                      rw [← hr.2]
          · obtain ⟨peer, hp, hi⟩ := respRead2_peer hr
            exact ⟨peer, hp, hi⟩

/-- The three ways in which a read in handshake state ends -/
theorem read_cases (peers : List Peer) (input : Bytes) (r : Role) (pid : UInt32) (s : HS) :
    (∃ out s' pid', sessionRead peers ⟨r, pid, .handshake s⟩ input =
        (.success, some out, ⟨r, pid', if s.step = 2 then .transport (split r s') else .handshake s'⟩) ∧
      s'.step = s.step + 1 ∧ s.step < 3 ∧ (writer s.step).isSome ∧ writer s.step ≠ some r ∧
      (pid' = pid ∧ s.step ≠ 2 ∨ s.step = 2 ∧ ∃ p ∈ peers, p.id = pid')) ∨
    (∃ e, sessionRead peers ⟨r, pid, .handshake s⟩ input = (.error e, none, ⟨r, pid, .handshake s⟩) ∧ s.step < 4) ∨
    ∃ e s', sessionRead peers ⟨r, pid, .handshake s⟩ input = (.stuck e, none, ⟨r, pid, .handshake s'⟩) ∧ 4 ≤ s'.step := by
  unfold sessionRead
  dsimp only
  by_cases h4 : s.step ≥ 4
  · rw [if_pos h4]
    exact .inr (.inr ⟨_, s, rfl, h4⟩)
  rw [if_neg h4]
  by_cases ht : readTurn r s.step = true
  · rw [if_pos ht]
    cases hn : payloadLen s.step input.length with
    | none => exact .inr (.inl ⟨_, rfl, by omega⟩)
    | some l =>
      dsimp only
      rcases handshakeRead_cases peers r pid s input l with ⟨out, s', pid', e, h⟩ | ⟨e, s', he, h1⟩
      · rw [e]
        exact .inl ⟨_, s', pid', rfl, h⟩
      · rw [he]
        exact .inr (.inr ⟨e, s', rfl, by omega⟩)
  · rw [if_neg ht]
    exact .inr (.inl ⟨_, rfl, by omega⟩)

/-- A call in transport state keeps the session in transport state and is not `stuck`. -/
theorem write_transport_cases (em : Encap) (r : Role) (pid : UInt32) (t : TS) :
    (∃ out t', sessionWrite em ⟨r, pid, .transport t⟩ = (.success, some out, ⟨r, pid, .transport t'⟩) ∧
      out.length = em.msg.length + 16 ∧ em.msg.length ≤ 4294967279) ∨
    ∃ e, sessionWrite em ⟨r, pid, .transport t⟩ = (.error e, none, ⟨r, pid, .transport t⟩) := by
  unfold sessionWrite transportWrite
  dsimp only
  by_cases h1 : em.msg.length ≤ 4294967279
  · rw [if_pos h1]
    by_cases h2 : secOk 5 em = true
    · rw [if_pos h2, if_neg (by simpa using h1)]
      by_cases h3 : t.sendNonce ≥ 18446744073709551615
      · rw [if_pos h3]
        exact .inr ⟨_, rfl⟩
      · rw [if_neg h3]
        exact .inl ⟨_, _, rfl, enc_length .., h1⟩
    · rw [if_neg h2]
      exact .inr ⟨_, rfl⟩
  · rw [if_neg h1]
    exact .inr ⟨_, rfl⟩

theorem read_transport_cases (peers : List Peer) (input : Bytes) (r : Role) (pid : UInt32) (t : TS) :
    (∃ out t', sessionRead peers ⟨r, pid, .transport t⟩ input = (.success, some out, ⟨r, pid, .transport t'⟩)) ∨
    ∃ e, sessionRead peers ⟨r, pid, .transport t⟩ input = (.error e, none, ⟨r, pid, .transport t⟩) := by
  unfold sessionRead transportRead
  dsimp only
  by_cases h1 : input.length ≥ 16
  · rw [if_pos h1]
    split
    · rename_i h
      split at h
      · simp at h
      · split at h
        · simp at h
        · split at h
          · simp at h
          · simp only [Prod.mk.injEq] at h
            rw [← h.2]
            exact .inl ⟨_, _, rfl⟩
    · rename_i h
      split at h
      · simp only [Prod.mk.injEq] at h
        rw [← h.2]
        exact .inr ⟨_, rfl⟩
      · split at h
        · simp only [Prod.mk.injEq] at h
          rw [← h.2]
          exact .inr ⟨_, rfl⟩
        · split at h
          · simp only [Prod.mk.injEq] at h
            rw [← h.2]
            exact .inr ⟨_, rfl⟩
          · simp at h
  · rw [if_neg h1]
    exact .inr ⟨_, rfl⟩

/-- What holds of a session after the successful calls `c`; `b` says that a call has made it unusable. `N` says that
the lists of peers have no number 0. -/
def LifeInv (N : Prop) (r : Role) (x : Live) (c : List Use) (b : Prop) : Prop :=
  x.sn.role = r ∧
  match x.sn.st with
  | .handshake s => c.length < 3 ∧ x.recv = false ∧ ((s.step = c.length ∧ ¬ b) ∨ (4 ≤ s.step ∧ b)) ∧
      (r = .responder → x.sn.pid = 0)
  | .transport _ => 3 ≤ c.length ∧ x.recv = (c.drop 3).any Use.isRead ∧ ¬ b ∧ (N → r = .responder → x.sn.pid ≠ 0)

/-- The lists of peers that are used have no number 0. -/
def Use.numbered : Use → Prop
  | .write _ => True
  | .read peers _ => ∀ p ∈ peers, p.id ≠ 0

theorem lifeInv_step {N : Prop} {r : Role} {x : Live} {c : List Use} {b : Prop} (h : LifeInv N r x c b) (u : Use)
    (hu : N → Use.numbered u) :
    LifeInv N r (use x u).2 (if (use x u).1 = .success then c ++ [u] else c) (b ∨ ∃ e, (use x u).1 = .stuck e) := by
  obtain ⟨⟨r', pid, st⟩, id, recv⟩ := x
  obtain ⟨hr, h⟩ := h
  simp only at hr
  subst hr
  cases st with
  | handshake s =>
    obtain ⟨h1, h2, h3, h4⟩ := h
    simp only at h1 h2 h3 h4
    cases u with
    | write em =>
      have hus : use ⟨⟨r', pid, .handshake s⟩, id, recv⟩ (.write em) = (_, _) := rfl
      simp only [liveWrite] at hus
      rcases write_cases em r' pid s with ⟨out, s', e, e1, e2, e3, -⟩ | ⟨e, he, hs⟩ | ⟨e, s', he, hs, -⟩
      · rw [e] at hus
        rw [hus]
        have hb : s.step = c.length ∧ ¬ b := by
          rcases h3 with h3 | h3
          · exact h3
          · omega
        have h5 : r' = .responder → s.step ≠ 2 := by
          rintro rfl h
          rw [h] at e3
          simp [writer] at e3
        refine ⟨rfl, ?_⟩
        by_cases h22 : s.step = 2
        · simp only [h22, if_true]
          have hl : c.length = 2 := by omega
          refine ⟨by simp [hl], ?_, by simp [hb.2], fun _ h => absurd h22 (h5 h)⟩
          rw [List.drop_eq_nil_of_le (by simp [hl])]
          rfl
        · simp only [h22, if_false, if_true]
          exact ⟨by simp; omega, trivial, .inl ⟨by simp; omega, by simp [hb.2]⟩, h4⟩
      · rw [he] at hus
        rw [hus]
        exact ⟨rfl, by simpa using ⟨h1, h3, h4⟩⟩
      · rw [he] at hus
        rw [hus]
        exact ⟨rfl, by simpa using ⟨h1, hs, h4⟩⟩
    | read peers input =>
      have hus : use ⟨⟨r', pid, .handshake s⟩, id, recv⟩ (.read peers input) = (_, _) := rfl
      simp only [liveRead] at hus
      rcases read_cases peers input r' pid s with ⟨out, s', pid', e, e1, e2, e3, e4, e5⟩ | ⟨e, he, hs⟩ | ⟨e, s', he, hs⟩
      · rw [e] at hus
        rw [hus]
        have hb : s.step = c.length ∧ ¬ b := by
          rcases h3 with h3 | h3
          · exact h3
          · omega
        refine ⟨rfl, ?_⟩
        by_cases h22 : s.step = 2
        · simp only [h22, if_true]
          have hl : c.length = 2 := by omega
          refine ⟨by simp [hl], ?_, by simp [hb.2], fun n h => ?_⟩
          · rw [List.drop_eq_nil_of_le (by simp [hl])]
            rfl
          · rcases e5 with e5 | ⟨-, p, hp, rfl⟩
            · exact absurd h22 e5.2
            · exact hu n p hp
        · simp only [h22, if_false, if_true]
          refine ⟨by simp; omega, trivial, .inl ⟨by simp; omega, by simp [hb.2]⟩, fun h => ?_⟩
          rcases e5 with e5 | e5
          · rw [e5.1]
            exact h4 h
          · exact absurd e5.1 h22
      · rw [he] at hus
        rw [hus]
        exact ⟨rfl, by simpa using ⟨h1, h3, h4⟩⟩
      · rw [he] at hus
        rw [hus]
        exact ⟨rfl, by simpa using ⟨h1, hs, h4⟩⟩
  | transport t =>
    obtain ⟨h1, h2, h3, h4⟩ := h
    simp only at h1 h2 h3 h4
    cases u with
    | write em =>
      have hus : use ⟨⟨r', pid, .transport t⟩, id, recv⟩ (.write em) = (_, _) := rfl
      simp only [liveWrite] at hus
      rcases write_transport_cases em r' pid t with ⟨out, t', e, -⟩ | ⟨e, he⟩
      · rw [e] at hus
        rw [hus]
        refine ⟨rfl, by simp; omega, ?_, by simpa using h3, h4⟩
        simp only [if_true]
        rw [List.drop_append_of_le_length h1, List.any_append, h2]
        simp [Use.isRead]
      · rw [he] at hus
        rw [hus]
        exact ⟨rfl, by simpa using ⟨h1, h2, h3, h4⟩⟩
    | read peers input =>
      have hus : use ⟨⟨r', pid, .transport t⟩, id, recv⟩ (.read peers input) = (_, _) := rfl
      simp only [liveRead] at hus
      rcases read_transport_cases peers input r' pid t with ⟨out, t', e⟩ | ⟨e, he⟩
      · rw [e] at hus
        rw [hus]
        refine ⟨rfl, by simp; omega, ?_, by simpa using h3, h4⟩
        simp only [if_true]
        rw [List.drop_append_of_le_length h1, List.any_append]
        simp [Use.isRead, RCode.isSuccess]
      · rw [he] at hus
        rw [hus]
        exact ⟨rfl, by simpa [RCode.isSuccess] using ⟨h1, h2, h3, h4⟩⟩

theorem lifeInv_run {N : Prop} {r : Role} (us : List Use) {x : Live} {c : List Use} {b : Prop} (h : LifeInv N r x c b)
    (hu : N → ∀ u ∈ us, Use.numbered u) : LifeInv N r (live x us) (c ++ done x us) (b ∨ broken x us) := by
  induction us generalizing x c b with
  | nil => simpa [live, done, broken] using h
  | cons u us ih =>
    have := ih (lifeInv_step h u fun n => hu n u (by simp)) (fun n v hv => hu n v (by simp [hv]))
    simp only [live, done, broken]
    rw [← or_assoc]
    convert this using 1
    split <;> simp

theorem created {N : Prop} {r : Role} {x : Live} (h : (∃ dv pid e, r = .initiator ∧ (liveInitiator dv pid e).1 = some x) ∨
    ∃ dv e, r = .responder ∧ (liveResponder dv e).1 = some x) : LifeInv N r x [] False := by
  rcases h with ⟨dv, pid, e, rfl, h⟩ | ⟨dv, e, rfl, h⟩
  · simp only [liveInitiator, Option.map_eq_some_iff] at h
    obtain ⟨sn, h, rfl⟩ := h
    unfold createInitiator at h
    split at h
    · simp at h
    · split at h
      · simp at h
      · simp only [Option.some.injEq] at h
        subst h
        exact ⟨rfl, by simp⟩
  · simp only [liveResponder, Option.map_eq_some_iff] at h
    obtain ⟨sn, h, rfl⟩ := h
    unfold createResponder at h
    split at h
    · simp at h
    · simp only [Option.some.injEq] at h
      subst h
      exact ⟨rfl, by simp⟩

/-- Numbers of the sessions of a device: at least the counter, increasing. -/
theorem sessions_ids (us : List DeviceUse) (dv : Device) :
    ((sessions us dv).map (·.id)).Pairwise (· < ·) ∧ ∀ x ∈ sessions us dv, dv.statesCounter ≤ x.id := by
  induction us generalizing dv with
  | nil => simp [sessions]
  | cons u us ih =>
    have key : ∀ (o : Option Live) (dv' : Device), (∀ x, o = some x → x.id = dv.statesCounter ∧
        dv.statesCounter < dv'.statesCounter) → (o = none → dv'.statesCounter = dv.statesCounter) →
        ((o.toList ++ sessions us dv').map (·.id)).Pairwise (· < ·) ∧ ∀ x ∈ o.toList ++ sessions us dv', dv.statesCounter ≤ x.id := by
      intro o dv' h1 h2
      obtain ⟨i1, i2⟩ := ih dv'
      cases o with
      | none =>
        rw [← h2 rfl]
        exact ⟨i1, i2⟩
      | some x =>
        obtain ⟨e1, e2⟩ := h1 x rfl
        refine ⟨?_, ?_⟩
        · simp only [Option.toList_some, List.singleton_append, List.map_cons, List.pairwise_cons]
          refine ⟨fun i hi => ?_, i1⟩
          obtain ⟨y, hy, rfl⟩ := List.mem_map.1 hi
          rw [e1]
          exact UInt32.lt_of_lt_of_le e2 (i2 y hy)
        · intro y hy
          simp only [Option.toList_some, List.singleton_append, List.mem_cons] at hy
          rcases hy with rfl | hy
          · rw [e1]
            exact UInt32.le_refl _
          · exact UInt32.le_trans (UInt32.le_of_lt e2) (i2 y hy)
    have hlt : ∀ c : UInt32, c ≠ 4294967295 → c < c + 1 := by
      intro c hc
      rw [UInt32.lt_iff_toNat_lt, UInt32.toNat_add]
      have h1 := c.toNat_lt
      have h2 : c.toNat ≠ 4294967295 := fun h => hc (UInt32.toNat_inj.1 h)
      have h3 : (1 : UInt32).toNat = 1 := rfl
      omega
    cases u with
    | peers ps => exact ih { dv with peers := ps }
    | initiator pid e =>
      simp only [sessions]
      refine key _ _ ?_ ?_
      · intro x hx
        simp only [liveInitiator, Option.map_eq_some_iff] at hx ⊢
        obtain ⟨sn, hx, rfl⟩ := hx
        refine ⟨rfl, ?_⟩
        unfold createInitiator at hx ⊢
        split at hx
        · simp at hx
        · rename_i hc
          rw [if_neg hc]
          split at hx
          · simp at hx
          · exact hlt _ hc
      · intro hx
        simp only [liveInitiator, Option.map_eq_none_iff] at hx ⊢
        unfold createInitiator at hx ⊢
        split at hx
        · rename_i hc
          rw [if_pos hc]
        · rename_i hc
          rw [if_neg hc]
          split at hx
          · rfl
          · simp at hx
    | responder e =>
      simp only [sessions]
      refine key _ _ ?_ ?_
      · intro x hx
        simp only [liveResponder, Option.map_eq_some_iff] at hx ⊢
        obtain ⟨sn, hx, rfl⟩ := hx
        refine ⟨rfl, ?_⟩
        unfold createResponder at hx ⊢
        split at hx
        · simp at hx
        · rename_i hc
          rw [if_neg hc]
          exact hlt _ hc
      · intro hx
        simp only [liveResponder, Option.map_eq_none_iff] at hx ⊢
        unfold createResponder at hx ⊢
        split at hx
        · rename_i hc
          rw [if_pos hc]
        · simp at hx

end

end Verif.Noise
