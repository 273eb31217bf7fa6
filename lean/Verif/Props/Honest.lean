import Verif.Proofs.HonestStart
import Verif.Proofs.PeerToy

/-!
# A run in which all parties follow the protocol (C48)
-/

set_option linter.unusedSectionVars false

namespace Verif.Props

open Verif.TpDkg Verif.Spec Verif.Wire Polynomial

section
variable [Signing] [Hashes] [NoiseCrypto] [Mac] (G : Type) [Ristretto G]

/-- **C48.** For all `2 ≤ t < n ≤ 128`, all randomness and all clocks within a window of `ts_epsilon` seconds: every call
of every party succeeds, all parties finish, no cheater and no complaint is recorded, and the final shares of the peers
are shares, with the threshold `t`, of the sum of the secrets that the peers drew. Missing: clocks of peers that are
behind the clock of the trusted party when it starts (`Setup.Honest.later`), see `C48_late_clock_refused`. -/
theorem C48_honest_run_partial (S : Setup) (lo : ℕ) (h : S.Honest lo) :
    ∃ net : Net, (S.start >>= fun s => s.run G S.tpEnv S.env) = .ok net ∧
      net.results.length = (S.n.toNat + 1) * 10 + S.n.toNat ∧ (∀ r ∈ net.results, r = 0) ∧
      tpNotDone net.tp = false ∧ net.tp.cheaterLen = 0 ∧ net.tp.complaintsLen = 0 ∧
      net.peers.length = S.n.toNat ∧
      (∀ p ∈ net.peers, peerNotDone p = false ∧ p.complaintsLen = 0 ∧ p.myLen = 0) ∧
      ∃ f : (ZMod L)[X], f.degree < S.t.toNat ∧
        f.eval 0 = ((List.range S.n.toNat).map fun i => ((S.env i).rnd.coeff 0).val).sum ∧
        ∀ i p, net.peers[i]? = some p → p.share.index.toNat = i + 1 ∧ OnPoly f p.share := by
  obtain ⟨tp, cs, wire, e, h1, h2, h3, h4⟩ := Honest.run_honest G h
  obtain ⟨f, f1, f2, f3⟩ := Honest.final_onPoly h
  refine ⟨_, e, List.length_replicate, fun r hr => List.eq_of_mem_replicate hr, ?_, h2, h3, by simp, ?_, f, f1, f2, ?_⟩
  · show decide (tp.step < 10) = false
    rw [h1]; rfl
  · intro p hp
    obtain ⟨i, hi, rfl⟩ := List.mem_map.1 hp
    obtain ⟨a, -, b, c⟩ := h4 i (List.mem_range.1 hi)
    refine ⟨?_, b, c⟩
    show decide ((cs i).step < 11) = false
    rw [a]; rfl
  · intro i p hp
    obtain ⟨j, hj, rfl⟩ := by simpa [List.getElem?_map] using hp
    obtain ⟨hi, rfl⟩ : j < S.n.toNat ∧ i = j := by
      rw [List.getElem?_eq_some_iff] at hj
      obtain ⟨a, b⟩ := hj
      rw [List.getElem_range] at b
      rw [List.length_range] at a
      omega
    rw [(h4 i hi).2.1]
    exact f3 i hi

/-- **C48.** Any at least `t` different final shares of the peers reconstruct the key. -/
theorem C48_shares_reconstruct_partial (S : Setup) (lo : ℕ) (h : S.Honest lo) (net : Net)
    (hrun : (S.start >>= fun s => s.run G S.tpEnv S.env) = .ok net) (sel : List Share) (hnd : sel.Nodup)
    (hlen : S.t.toNat ≤ sel.length) (hsel : ∀ x ∈ sel, ∃ p ∈ net.peers, x = p.share) :
    Dkg.reconstruct sel = .ok (B32.ofZ ((List.range S.n.toNat).map fun i => ((S.env i).rnd.coeff 0).val).sum) := by
  obtain ⟨net', e, -, -, -, -, -, -, -, f, f1, f2, f3⟩ := C48_honest_run_partial G S lo h
  rw [hrun] at e
  cases e
  have hon : ∀ x ∈ sel, OnPoly f x := by
    intro x hx
    obtain ⟨p, hp, rfl⟩ := hsel x hx
    obtain ⟨i, hi⟩ := List.getElem?_of_mem hp
    exact (f3 i p hi).2
  have ht := h.t_ge
  rw [Dkg.reconstruct_recovers f sel (by intro h; rw [h] at hlen; simp at hlen; omega) (onPoly_nodup hon hnd)
    (lt_of_lt_of_le f1 (by exact_mod_cast hlen)) (fun s hs => (hon s hs).2), f2]

theorem round_results {s s' : Net} {tpEnv : PEnv} {env : ℕ → PEnv} (h : s.round G tpEnv env = .ok s') :
    s.results <+: s'.results := by
  unfold Net.round at h
  simp only [C.bind_eq_ok] at h
  obtain ⟨⟨r, tp, out⟩, -, ⟨rs, ps, w⟩, -, h⟩ := h
  cases h
  exact List.prefix_append _ _

theorem rounds_results {s s' : Net} {tpEnv : PEnv} {env : ℕ → PEnv} : ∀ (k : ℕ), s.rounds G tpEnv env k = .ok s' →
    s.results <+: s'.results
  | 0, h => by cases h; exact List.prefix_refl _
  | k + 1, h => by
    unfold Net.rounds at h
    obtain ⟨s1, h1, h2⟩ := C.bind_eq_ok.1 h
    exact (rounds_results k h1).trans (round_results G h2)

theorem rounds_mid {s s' s2 : Net} {tpEnv : PEnv} {env : ℕ → PEnv} (m : ℕ) (h2 : s.rounds G tpEnv env m = .ok s2) :
    ∀ (k : ℕ), s.rounds G tpEnv env (m + k) = .ok s' → s2.results <+: s'.results
  | 0, h => by rw [Nat.add_zero, h2] at h; cases h; exact List.prefix_refl _
  | k + 1, h => by
    rw [← Nat.add_assoc] at h
    unfold Net.rounds at h
    obtain ⟨s1, h1, h3⟩ := C.bind_eq_ok.1 h
    exact (rounds_mid m h2 k h1).trans (round_results G h3)

theorem run_results {s s' s2 : Net} {tpEnv : PEnv} {env : ℕ → PEnv} (h2 : s.rounds G tpEnv env 2 = .ok s2)
    (h : s.run G tpEnv env = .ok s') : s2.results <+: s'.results := by
  unfold Net.run at h
  simp only [C.bind_eq_ok] at h
  obtain ⟨s7, h7, s8, h8, h9⟩ := h
  refine (rounds_mid G 2 h2 5 h7).trans (List.IsPrefix.trans ?_ (rounds_results G 2 h9))
  unfold Net.idle at h8
  simp only [C.bind_eq_ok] at h8
  obtain ⟨⟨rs, ps, w⟩, -, h8⟩ := h8
  cases h8
  exact List.prefix_append _ _

end

section Toy
attribute [local instance] Ristretto.toy Toy.hashes Toy.signing Toy.noise Toy.mac

/-- Three peers and threshold 2. The clock of the trusted party shows 20 and those of the peers `now`. -/
def toySetup (now : UInt64) : Setup where
  n := 3
  t := 2
  name := [65]
  sid := zero32
  seed := zero32
  eps := 10
  msg0 := List.replicate 177 0
  tp0 := Toy.tp3 0
  tpEnv := ⟨fun _ => 20, false, true, zero32, Toy.rnd, fun _ => 0⟩
  peer0 := fun _ => Toy.peer 0
  env := fun i => ⟨fun _ => now, false, true, zero32,
    { Toy.rnd with noiseSk := B32.ofNat i, coeff := fun k => B32.ofNat (i + k % 2 + 1) }, fun _ => 0⟩
  lt := fun i => B32.ofNat (i + 40)

theorem toySetup_fair (now : UInt64) (h1 : 15 ≤ now.toNat) (h2 : now.toNat ≤ 25) : (toySetup now).Fair 15 where
  t_ge := show 2 ≤ 2 by decide
  t_lt := show 2 < 3 by decide
  n_le := show 3 ≤ 128 by decide
  name_pos := show 1 ≤ 1 by decide
  name_le := show 1 ≤ 1024 by decide
  msg0 := List.length_replicate
  tp_lastTs := rfl
  tp_sigPks := rfl
  tp_commitments := rfl
  tp_complaints := rfl
  tp_encShares := by
    have h : (toySetup now).tp0.encShares = List.replicate (3 * 3 * 256) 0 := rfl
    rw [h, List.length_replicate]; rfl
  tp_cheaters := show 3 ≤ 3 by decide
  lastTs := fun _ _ => rfl
  sigPks := fun _ _ => rfl
  noisePks := fun _ _ => rfl
  outs := fun _ _ => rfl
  ins := fun _ _ => rfl
  shares := fun _ _ => rfl
  xshares := fun _ _ => rfl
  mine := fun _ _ => rfl
  commitments := fun _ _ => rfl
  complaints := fun _ _ => rfl
  window := show 10 ≤ 15 by decide
  lo_pos := by decide
  no_wrap := show 15 + 2 * 10 < 2 ^ 64 by decide
  tpClock := ⟨fun _ _ _ => UInt64.le_refl _, fun _ => show 15 ≤ 20 by decide,
    fun _ => show 20 ≤ 15 + 10 by decide⟩
  clock := fun _ _ => ⟨fun _ _ _ => UInt64.le_refl _, fun _ => h1, fun _ => h2⟩
  mlock := fun _ _ => rfl
  coeff := by
    intro i hi k
    have hi : i < 3 := hi
    have : k % 2 < 2 := Nat.mod_lt _ (by decide)
    show RandomScalar (B32.ofNat (i + k % 2 + 1))
    obtain ⟨m, hm⟩ : ∃ m, m = k % 2 := ⟨_, rfl⟩
    rw [← hm] at this ⊢
    unfold RandomScalar B32.Canonical
    interval_cases i <;> interval_cases m <;> decide +kernel
  keys := by
    intro i hi j hj
    have hi : i < 3 := hi
    have hj : j < 3 := hj
    show B32.ofNat i = B32.ofNat j → i = j
    interval_cases i <;> interval_cases j <;> decide +kernel

/-- A setup that meets the hypotheses. -/
example : (toySetup 21).Honest 15 :=
  { toySetup_fair 21 (by decide) (by decide) with later := fun _ _ _ => show (20 : UInt64) ≤ 21 by decide }

/-- **C48, negation.** The clocks of all parties lie within a window of `ts_epsilon = 10` seconds and everybody follows the
protocol, but the clocks of the peers are one second behind that of the trusted party: some call fails. -/
theorem C48_late_clock_refused : ∃ (S : Setup) (lo : ℕ), S.Fair lo ∧
    ∀ net, (S.start >>= fun s => s.run (ZMod L) S.tpEnv S.env) = .ok net → ∃ r ∈ net.results, r ≠ 0 := by
  refine ⟨toySetup 19, 15, toySetup_fair 19 (by decide) (by decide), fun net h => ?_⟩
  obtain ⟨s, hs, h⟩ := C.bind_eq_ok.1 h
  obtain ⟨s2, h2, hr⟩ := Toy.isOk_elim (p := fun s => s.results.any (· != 0))
    (x := (toySetup 19).start >>= fun s => s.rounds (ZMod L) (toySetup 19).tpEnv (toySetup 19).env 2) (by decide +kernel)
  rw [hs, C.ok_bind] at h2
  obtain ⟨r, hr, h0⟩ := List.any_eq_true.1 hr
  exact ⟨r, (run_results (ZMod L) h2 h).subset hr, by simpa using h0⟩

end Toy

end Verif.Props
