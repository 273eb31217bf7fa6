import Verif.Proofs.Multiplexer
import Mathlib.Data.List.Perm.Subperm

/-!
# The multiplexer returns the peers' own answers: C57

`socks` are the connections at the call of `gather`, `socks[i].inbox` is what peer `i` sends on its connection. The theorems
are for all schedules: all sets of ready descriptors, all cuts of the streams, all exceptions, all numbers of pending bytes.
-/

namespace Verif.Props

open Mux

variable {V : Type}

/-- **C57.** The result has one slot per peer. -/
theorem C57_one_slot_per_peer (proc : Proc V) (hashable : V → Bool) (size : ℕ) (n : Option ℕ) (pending : ℕ → ℕ)
    (sched : List (List Int)) (socks : List Sock) (res : List (Option V)) (st : St V)
    (h : gather proc hashable size n pending sched socks = .ret (res, st)) : res.length = socks.length := by
  obtain ⟨-, -, rfl⟩ := gather_ret h
  rw [List.length_map, List.length_range]

/-- **C57.** A value in slot `i` was made from one packet of peer `i`: a contiguous part of its stream, of at most the
expected length, and shorter only if it is the end of the stream. -/
theorem C57_own_answer (proc : Proc V) (hashable : V → Bool) (size : ℕ) (n : Option ℕ) (pending : ℕ → ℕ)
    (sched : List (List Int)) (socks : List Sock) (res : List (Option V)) (st : St V)
    (h : gather proc hashable size n pending sched socks = .ret (res, st)) (i : ℕ) (v : V) (hv : res[i]? = some (some v)) :
    ∃ k, socks[i]? = some k ∧ ∃ before pkt after, k.inbox = before ++ pkt ++ after ∧ pkt ≠ failMsg ∧
      proc pkt = .ret (some v) ∧ pkt.length ≤ size ∧ (pkt.length < size → after = []) := by
  obtain ⟨g, -, rfl⟩ := gather_ret h
  rw [List.getElem?_map] at hv
  by_cases hi : i < socks.length
  case neg => rw [List.getElem?_eq_none (by simpa using hi)] at hv; cases hv
  rw [List.getElem?_range hi] at hv
  have hj : (st.get i).join = some v := by simpa using hv
  have hg : st.get i = some (some v) := by
    cases hst : st.get i with
    | none => rw [hst] at hj; cases hj
    | some w => rw [hst] at hj; exact congrArg some hj
  obtain ⟨rej, -, r2⟩ := g.hist i
  rw [hg] at r2
  obtain ⟨pkt, e1, e2⟩ := r2
  have h' : i < st.socks.length := by rw [g.len]; exact hi
  have hs := g.stream i hi h'
  rw [e1] at hs
  obtain ⟨e3, e4⟩ := e2.resolve_left (fun h => by cases h.2)
  have hm : (i, pkt) ∈ st.log := by
    have : pkt ∈ packets st.log i := by rw [e1]; simp
    unfold packets at this
    simp only [List.mem_map, List.mem_filter, beq_iff_eq] at this
    obtain ⟨x, ⟨hx, h1⟩, h2⟩ := this
    rw [← h1, ← h2]
    exact hx
  refine ⟨socks[i], List.getElem?_eq_getElem hi, rej.flatten, pkt, st.socks[i].inbox, ?_, e3, e4, (g.sized _ hm).1,
    fun hl => (g.sized _ hm).2 h' hl⟩
  rw [← hs]
  simp

/-- **C57.** The packets read from a peer are disjoint parts of its stream, in order, all of them but the last were refused
by the callback, and after a packet that became the answer the peer is not read again. -/
theorem C57_processed_once (proc : Proc V) (hashable : V → Bool) (size : ℕ) (n : Option ℕ) (pending : ℕ → ℕ)
    (sched : List (List Int)) (socks : List Sock) (res : List (Option V)) (st : St V)
    (h : gather proc hashable size n pending sched socks = .ret (res, st)) (i : ℕ) (k : Sock) (hk : socks[i]? = some k) :
    ∃ rest, k.inbox = (packets st.log i).flatten ++ rest ∧
      ∀ pkt ∈ (packets st.log i).dropLast, pkt ≠ failMsg ∧ proc pkt = .ret none := by
  obtain ⟨g, -, -⟩ := gather_ret h
  obtain ⟨hi, rfl⟩ := List.getElem?_eq_some_iff.1 hk
  have h' : i < st.socks.length := by rw [g.len]; exact hi
  refine ⟨_, (g.stream i hi h').symm, fun p hp => ?_⟩
  obtain ⟨rej, r1, r2⟩ := g.hist i
  split at r2
  · rw [r2] at hp
    exact r1 p (List.dropLast_subset _ hp)
  · obtain ⟨q, e, -⟩ := r2
    rw [e, List.dropLast_concat] at hp
    exact r1 p hp

/-- **C57**, number of answers, as far as it holds: at least as many peers as requested were read from, and if no packet was
a failure, refused or the rest of a closed connection, at least as many slots as requested have a value. Missing: failures,
values refused while bytes were pending and closed connections count as answers (next theorems). -/
theorem C57_enough_partial (proc : Proc V) (hashable : V → Bool) (size : ℕ) (n : Option ℕ) (pending : ℕ → ℕ)
    (sched : List (List Int)) (socks : List Sock) (res : List (Option V)) (st : St V)
    (h : gather proc hashable size n pending sched socks = .ret (res, st)) :
    n.getD socks.length ≤ ((List.range socks.length).filter fun i => !(packets st.log i).isEmpty).length ∧
    ((∀ x ∈ st.log, x.2 ≠ failMsg ∧ proc x.2 ≠ .ret none) →
      n.getD socks.length ≤ ((List.range socks.length).filter fun i => (res[i]?.join).isSome).length) := by
  obtain ⟨g, hl, rfl⟩ := gather_ret h
  have hkeys : ∀ P : ℕ → Bool, (∀ i < socks.length, (st.get i).isSome → P i) →
      st.resp.length ≤ ((List.range socks.length).filter P).length := by
    intro P hP
    rw [← List.length_map (f := (·.1))]
    refine (g.keys.subperm fun i hi => ?_).length_le
    obtain ⟨x, hx, rfl⟩ := List.mem_map.1 hi
    have hlt := g.lt x hx
    rw [List.mem_filter]
    refine ⟨List.mem_range.2 hlt, hP _ hlt ?_⟩
    by_contra hne
    exact get_none_not_mem (by simpa using hne) hi
  refine ⟨hl.trans (hkeys _ fun i hi hs => ?_), fun hgood => hl.trans (hkeys _ fun i hi hs => ?_)⟩
  all_goals
    obtain ⟨v, hv⟩ := Option.isSome_iff_exists.1 hs
    obtain ⟨rej, -, r2⟩ := g.hist i
    rw [hv] at r2
    obtain ⟨pkt, e1, e2⟩ := r2
  · rw [e1]; simp
  · have hm : ∃ x ∈ st.log, x.2 = pkt := by
      have : pkt ∈ packets st.log i := by rw [e1]; simp
      unfold packets at this
      simp only [List.mem_map, List.mem_filter, beq_iff_eq] at this
      obtain ⟨x, ⟨hx, -⟩, h2⟩ := this
      exact ⟨x, hx, h2⟩
    obtain ⟨x, hx, rfl⟩ := hm
    obtain ⟨q1, q2⟩ := hgood x hx
    have e3 := (e2.resolve_left fun h => q1 h.1).2
    cases v with
    | none => exact absurd e3 q2
    | some v => rw [List.getElem?_map, List.getElem?_range hi]; simp [hv]

/-- No callback. -/
def plain : Proc Bytes := fun p => .ret (some p)

/-- Two peers that send these bytes; descriptors 5 and 6. -/
def twoPeers (a b : Bytes) : List Sock := [⟨5, true, a, []⟩, ⟨6, true, b, []⟩]

/-- **C57**, violated: a peer that reports a failure counts as one of the two requested answers, only one slot has a value. -/
theorem C57_failure_counts_violated : ∃ st,
    gather plain (fun _ => true) 6 (some 2) (fun _ => 0) [[6, 5]] (twoPeers failMsg [1, 2, 3, 4, 5, 6]) =
      .ret ([none, some [1, 2, 3, 4, 5, 6]], st) := by
  exact ⟨_, by rfl⟩

/-- **C57**, violated: a peer that closed its connection without an answer counts as an answer, its slot has the empty
string. -/
theorem C57_closed_counts_violated : ∃ st,
    gather plain (fun _ => true) 3 (some 2) (fun _ => 0) [[5], [6]] (twoPeers [] [1, 2, 3]) =
      .ret ([some [], some [1, 2, 3]], st) :=
  ⟨_, by rfl⟩

/-- A callback that refuses packets that begin with 9. -/
def picky : Proc Bytes := fun p => .ret (if p.head? = some 9 then none else some p)

/-- **C57**, violated: a packet that the callback refuses counts as an answer if it was already pending, and the next packet
of this peer is not read; when it arrives later, the refused packet does not count. -/
theorem C57_refused_counts_violated :
    (∃ st, gather picky (fun _ => true) 3 (some 2) (fun i => if i = 0 then 3 else 0) [[6]]
      (twoPeers [9, 9, 9, 1, 2, 3] [4, 5, 6]) = .ret ([none, some [4, 5, 6]], st)) ∧
    ∃ st, gather picky (fun _ => true) 3 (some 2) (fun _ => 0) [[5], [6], [5]]
      (twoPeers [9, 9, 9, 1, 2, 3] [4, 5, 6]) = .ret ([some [1, 2, 3], some [4, 5, 6]], st) :=
  ⟨⟨_, by rfl⟩, _, by rfl⟩

/-- The hypotheses of the theorems can be met: the answer of peer 0 arrives in pieces after a packet that is refused, that
of peer 1 is pending, and peer 2 does not answer. -/
example : ∃ st, gather picky (fun _ => true) 3 (some 2) (fun i => if i = 1 then 3 else 0) [[], [4], [4]]
      [⟨4, true, [9, 9, 9, 1, 2, 3, 4], [some 0, some 1, some 1]⟩, ⟨7, true, [5, 6, 7], [some 0]⟩, ⟨8, true, [], []⟩] =
      .ret ([some [1, 2, 3], some [5, 6, 7], none], st) ∧ packets st.log 0 = [[9, 9, 9], [1, 2, 3]] ∧
      packets st.log 1 = [[5, 6, 7]] ∧ packets st.log 2 = [] :=
  ⟨_, by rfl, by rfl, by rfl, by rfl⟩

/-- Also those of the second part of `C57_enough_partial`. -/
example : ∃ st, gather plain (fun _ => true) 2 none (fun _ => 0) [[6], [], [5, 5]] (twoPeers [1, 2] [3, 4, 5]) =
      .ret ([some [1, 2], some [3, 4]], st) ∧ ∀ x ∈ st.log, x.2 ≠ failMsg ∧ plain x.2 ≠ .ret none := by
  refine ⟨_, by rfl, fun x hx => ⟨?_, fun h => by cases h⟩⟩
  have hx : x ∈ [(1, ([3, 4] : Bytes)), (0, [1, 2])] := hx
  simp only [List.mem_cons, List.not_mem_nil, or_false] at hx
  rcases hx with rfl | rfl <;> decide

end Verif.Props
