import Verif.Model.Connection

/-!
# Property of the connections of the multiplexer: C93
-/

namespace Verif.Props

open Conn

/-- What holds after any calls. -/
structure ConnInv (k : Kind) (c : Bool) (p : Peer) : Prop where
  kind : p.kind = k
  cert : p.cert = c
  newest : ∀ i, p.fd = some i → i + 1 = p.socks.length
  open_ : p.state = .connected → ∃ s, p.sock = some s ∧ s.connected = true ∧ s.closed = false
  closed : p.state = .closed → ∀ s, p.sock = some s → s.closed = true ∨ s.connected = false
  tcp : k ≠ .ssl → p.fd = none
  checked : ∀ s ∈ p.socks, s.verify = !c ∧ s.hostname = !c

theorem connInv_init (k : Kind) (c : Bool) : ConnInv k c (init k c) :=
  ⟨rfl, rfl, by simp [init], by simp [init], by simp [init], fun _ => rfl, by simp [init]⟩

theorem connInv_step {k : Kind} {c : Bool} {p : Peer} (h : ConnInv k c p) (o : Call) : ConnInv k c (step p o).2 := by
  cases o with
  | connect a =>
    simp only [step, connect]
    split
    · exact h
    · split
      · exact h
      · rename_i hs _ hk
        have hk' : k = .ssl := h.kind ▸ hk
        have hc := h.cert
        have base : ∀ s : Sock, s.verify = (!c) → s.hostname = (!c) → ∀ st : St, (st = .connected → s.connected = true ∧ s.closed = false) →
            (st = .closed → s.closed = true ∨ s.connected = false) →
            ConnInv k c { p with fd := some p.socks.length, socks := p.socks ++ [s], state := st } := by
          intro s hv hh st h1 h2
          refine ⟨h.kind, h.cert, ?_, ?_, ?_, fun hn => absurd hk' hn, ?_⟩
          · intro i hi
            simp only [Option.some.injEq] at hi
            simp [← hi]
          · intro hst
            exact ⟨s, by simp [Peer.sock], h1 hst⟩
          · intro hst s' hs'
            simp [Peer.sock] at hs'
            subst hs'
            exact h2 hst
          · intro s' hs'
            rcases List.mem_append.mp hs' with hs' | hs'
            · exact h.checked s' hs'
            · rw [List.mem_singleton] at hs'
              rw [hs']
              exact ⟨hv, hh⟩
        cases a with
        | true =>
          simp only [if_true]
          cases c with
          | true => rw [hc]; have e := base ⟨false, false, true, false⟩ rfl rfl .connected (fun _ => ⟨rfl, rfl⟩) (by simp); rw [hc] at e; exact e
          | false => rw [hc]; have e := base ⟨true, true, true, false⟩ rfl rfl .connected (fun _ => ⟨rfl, rfl⟩) (by simp); rw [hc] at e; exact e
        | false =>
          simp only [Bool.false_eq_true, if_false]
          have hst : p.state ≠ .connected := hs
          cases c with
          | true => rw [hc]; have e := base ⟨false, false, false, false⟩ rfl rfl p.state (fun h' => absurd h' hst) (fun _ => Or.inr rfl); rw [hc] at e; exact e
          | false => rw [hc]; have e := base ⟨true, true, false, false⟩ rfl rfl p.state (fun h' => absurd h' hst) (fun _ => Or.inr rfl); rw [hc] at e; exact e
      · rename_i hk
        have : p.fd = none := h.tcp (by rw [← h.kind, hk]; decide)
        rw [this]
        exact h
  | read b =>
    simp only [step, Conn.read]
    split
    · exact h
    · split
      · exact h
      · split
        · exact h
        · exact ⟨h.kind, h.cert, h.newest, by simp, by simp, h.tcp, h.checked⟩
  | send b =>
    simp only [step, send]
    split
    · exact h
    · split <;> exact h
  | close =>
    simp only [step, close]
    split
    · exact h
    · split
      · rename_i hf
        exact ⟨h.kind, h.cert, h.newest, by simp, by simp [Peer.sock, hf], h.tcp, h.checked⟩
      · rename_i i hf
        refine ⟨h.kind, h.cert, ?_, by simp, ?_, h.tcp, ?_⟩
        · intro j hj
          simpa using h.newest j hj
        · intro _ s hs
          simp only [Peer.sock, hf, Option.bind_some, List.getElem?_modify_eq, Option.map_eq_map, Option.map_eq_some_iff] at hs
          obtain ⟨s', -, rfl⟩ := hs
          exact Or.inl rfl
        · intro s hs
          obtain ⟨j, hj, rfl⟩ := List.mem_iff_getElem.mp hs
          rw [List.getElem_modify]
          have := h.checked (p.socks[j]'(by simpa using hj)) (List.getElem_mem _)
          split <;> exact this

theorem connInv_run {k : Kind} {c : Bool} : ∀ (calls : List Call) {p : Peer}, ConnInv k c p → ConnInv k c (run p calls).2
  | [], _, h => h
  | o :: os, _, h => connInv_run os (connInv_step h o)

theorem usable_iff {p : Peer} : usable p = true ↔ ∃ s, p.sock = some s ∧ s.connected = true ∧ s.closed = false := by
  unfold usable
  cases p.sock <;> simp

theorem run_append (p : Peer) (a b : List Call) : (run p (a ++ b)).2 = (run (run p a).2 b).2 := by
  induction a generalizing p with
  | nil => rfl
  | cons o os ih => exact ih _

/-- C93: after any calls, a peer that is marked as connected has a socket that the other side accepted and that was not closed
here; reading never fails for want of a connection. -/
theorem C93_connected (k : Kind) (c : Bool) (calls : List Call) (complete : Bool) :
    let p := (run (init k c) calls).2
    p.state = .connected →
      (∃ s, p.sock = some s ∧ s.connected = true ∧ s.closed = false) ∧ (step p (.read complete)).1 = .done := by
  intro p hp
  have h := (connInv_run calls (connInv_init k c)).open_ hp
  refine ⟨h, ?_⟩
  have hu := usable_iff.mpr h
  simp only [step, Conn.read, hp, ne_eq, not_true_eq_false, if_false]
  rw [if_neg (by rw [show usable p = true from hu]; decide)]
  split <;> rfl

/-- C93, closed: after `close` nothing is read or sent. -/
theorem C93_after_close (k : Kind) (c : Bool) (calls : List Call) (b : Bool) :
    let p := (run (init k c) (calls ++ [.close])).2
    (step p (.read b)).1 = .raised ∧ (step p (.send b)).1 = .raised := by
  intro p
  have hinv : ConnInv k c p := connInv_run _ (connInv_init k c)
  have hst : p.state = .closed := by
    show (run (init k c) (calls ++ [.close])).2.state = .closed
    rw [run_append]
    simp only [run, step, close]
    split
    · assumption
    · split <;> rfl
  have hu : usable p = false := by
    by_contra hne
    rw [Bool.not_eq_false] at hne
    obtain ⟨s, hs, h1, h2⟩ := usable_iff.mp hne
    rcases hinv.closed hst s hs with h | h
    · rw [h2] at h; exact absurd h (by decide)
    · rw [h1] at h; exact absurd h (by decide)
  simp [step, Conn.read, send, hst, hu]

/-- C93, authenticated: without the argument `ssl_cert`, whatever is read or sent goes over a connection for which the
certificate and the name of the host were checked.

Partial: this should hold with the argument as well (next theorem). -/
theorem C93_verified_partial (k : Kind) (calls : List Call) (b : Bool) :
    let p := (run (init k false) calls).2
    (step p (.read b)).1 = .done ∨ (step p (.send b)).1 = .done →
      k = .ssl ∧ ∃ s, p.sock = some s ∧ s.connected = true ∧ s.verify = true ∧ s.hostname = true := by
  intro p hp
  have hinv : ConnInv k false p := connInv_run calls (connInv_init k false)
  have hu : usable p = true := by
    by_contra hne
    rw [Bool.not_eq_true] at hne
    rcases hp with hp | hp
    · simp only [step, Conn.read, hne, if_true] at hp
      split at hp <;> exact Out.noConfusion hp
    · simp only [step, send, hne, if_true] at hp
      exact Out.noConfusion hp
  obtain ⟨s, hs, h1, -⟩ := usable_iff.mp hu
  refine ⟨?_, s, hs, h1, ?_⟩
  · by_contra hk
    rw [Peer.sock, hinv.tcp hk] at hs
    exact absurd hs (by simp)
  · have hmem : s ∈ p.socks := by
      rw [Peer.sock] at hs
      obtain ⟨i, -, hi⟩ := Option.bind_eq_some_iff.mp hs
      exact List.mem_of_getElem? hi
    simpa using hinv.checked s hmem

/-- C93, certificate: if a certificate to trust is given, no connection checks any certificate or host name, and data is sent
all the same. -/
theorem C93_cert_violated (calls : List Call) :
    (∀ s ∈ (run (init .ssl true) calls).2.socks, s.verify = false ∧ s.hostname = false) ∧
    (run (init .ssl true) [.connect true, .send true]).1 = [.done, .done] := by
  refine ⟨fun s hs => ?_, by decide⟩
  simpa using (connInv_run calls (connInv_init .ssl true)).checked s hs

/-- C93, TCP: a peer of the type "TCP", which `connect` lets through, is never connected; every call but `close` raises an
exception. -/
theorem C93_tcp_violated (c : Bool) (calls : List Call) {o : Call} (ho : o ≠ .close) :
    (step (run (init .tcp c) calls).2 o).1 = .raised ∧ (run (init .tcp c) calls).2.state ≠ .connected := by
  have hinv : ConnInv .tcp c (run (init .tcp c) calls).2 := connInv_run calls (connInv_init .tcp c)
  generalize (run (init .tcp c) calls).2 = p at hinv
  have hfd := hinv.tcp (by decide)
  have hs : p.state ≠ .connected := by
    intro h
    obtain ⟨s, hs, -⟩ := hinv.open_ h
    rw [Peer.sock, hfd] at hs
    exact absurd hs (by simp)
  refine ⟨?_, hs⟩
  cases o with
  | connect a => simp [step, connect, hs, hinv.kind, hfd]
  | read b => simp [step, Conn.read, hs]
  | send b => simp [step, send, usable, Peer.sock, hfd]
  | close => exact absurd rfl ho

/-- C93, sending: `send` does not look at the state. After the other side has hung up, a peer that refuses to read still sends. -/
theorem C93_send_violated (c : Bool) :
    (run (init .ssl c) [.connect true, .read false, .read true, .send true]).1 = [.done, .done, .raised, .done] := by
  cases c <;> decide

theorem socks_keep {p : Peer} {i : ℕ} {s : Sock} (hi : p.socks[i]? = some s) (hfd : ∀ j, p.fd = some j → i < j) (o : Call) :
    (step p o).2.socks[i]? = some s ∧ ∀ j, (step p o).2.fd = some j → i < j := by
  have hlt : i < p.socks.length := (List.getElem?_eq_some_iff.mp hi).1
  have happ : ∀ x : Sock, (p.socks ++ [x])[i]? = some s := fun x => by rw [List.getElem?_append_left hlt, hi]
  have hmod : ∀ j (f : Sock → Sock), p.fd = some j → (p.socks.modify j f)[i]? = some s := by
    intro j f hj
    rw [List.getElem?_modify, hi]
    have := hfd j hj
    simp only [Option.map_eq_map, Option.map_some, Option.some.injEq]
    rw [if_neg (by omega)]
  cases o with
  | connect a =>
    simp only [step, connect]
    split
    · exact ⟨hi, hfd⟩
    · split
      · exact ⟨hi, hfd⟩
      · cases a
        · simp only [Bool.false_eq_true, if_false]
          exact ⟨happ _, fun j hj => by simp only [Option.some.injEq] at hj; omega⟩
        · simp only [if_true]
          exact ⟨happ _, fun j hj => by simp only [Option.some.injEq] at hj; omega⟩
      · split
        · exact ⟨hi, hfd⟩
        · rename_i j hj
          cases a
          · exact ⟨hi, hfd⟩
          · exact ⟨hmod j _ hj, hfd⟩
  | read b =>
    simp only [step, Conn.read]
    split
    · exact ⟨hi, hfd⟩
    · split
      · exact ⟨hi, hfd⟩
      · split <;> exact ⟨hi, hfd⟩
  | send b =>
    simp only [step, send]
    split
    · exact ⟨hi, hfd⟩
    · split <;> exact ⟨hi, hfd⟩
  | close =>
    simp only [step, close]
    split
    · exact ⟨hi, hfd⟩
    · split
      · exact ⟨hi, hfd⟩
      · rename_i j hj
        exact ⟨hmod j _ hj, hfd⟩

/-- C93, reconnecting: a connection that is made anew after the other side hung up replaces the old socket, which is then never
closed by this code, whatever is called later (it is left to the garbage collector). -/
theorem C93_reconnect_violated (c : Bool) (calls : List Call) :
    ∃ s, (run (init .ssl c) ([.connect true, .read false, .connect true] ++ calls)).2.socks[0]? = some s ∧
      s.connected = true ∧ s.closed = false := by
  rw [run_append]
  have h0 : ∃ s, (run (init .ssl c) [.connect true, .read false, .connect true]).2.socks[0]? = some s ∧
      s.connected = true ∧ s.closed = false ∧
      ∀ j, (run (init .ssl c) [.connect true, .read false, .connect true]).2.fd = some j → 0 < j := by
    cases c
    · exact ⟨⟨true, true, true, false⟩, by decide, rfl, rfl, fun j hj => by
        have : some 1 = some j := hj
        cases this; decide⟩
    · exact ⟨⟨false, false, true, false⟩, by decide, rfl, rfl, fun j hj => by
        have : some 1 = some j := hj
        cases this; decide⟩
  obtain ⟨s, h1, h2, h3, h4⟩ := h0
  refine ⟨s, ?_, h2, h3⟩
  generalize (run (init .ssl c) [.connect true, .read false, .connect true]).2 = p at h1 h4
  induction calls generalizing p with
  | nil => exact h1
  | cons o os ih =>
    obtain ⟨a, b⟩ := socks_keep h1 h4 o
    exact ih (step p o).2 a b

/-! ### Examples -/

/-- A connected peer, after a refused attempt and a second call of `connect`. -/
example : run (init .ssl false) [.connect false, .connect true, .connect true, .read true] =
    ([.raised, .done, .raised, .done],
     ⟨.ssl, false, .connected, some 1, [⟨true, true, false, false⟩, ⟨true, true, true, false⟩]⟩) := by decide

example : (Call.connect true) ≠ .close := by decide

end Verif.Props
