import Verif.Model.Multiplexer

/-!
# Invariant of `gather`
-/

namespace Verif.Mux

variable {α β V : Type}

instance : LawfulMonad Out := LawfulMonad.mk' Out (fun x => by cases x <;> rfl) (fun _ _ => rfl)
  (fun x _ _ => by cases x <;> rfl)

theorem Out.bind_ret {x : Out α} {f : α → Out β} {b : β} (h : x >>= f = .ret b) : ∃ a, x = .ret a ∧ f a = .ret b := by
  cases x with
  | ret a => exact ⟨a, rfl, h⟩
  | raised => cases h
  | waiting => cases h

theorem Out.foldlM_ret {f : β → α → Out β} {P : β → Prop} {l : List α} (hstep : ∀ s, P s → ∀ a ∈ l, ∀ s', f s a = .ret s' → P s') :
    ∀ {s s' : β}, P s → l.foldlM f s = .ret s' → P s' := by
  induction l with
  | nil => intro s s' hs h; cases h; exact hs
  | cons a l ih =>
    intro s s' hs h
    rw [List.foldlM_cons] at h
    obtain ⟨s1, h1, h2⟩ := Out.bind_ret h
    exact ih (fun s hs a ha => hstep s hs a (List.mem_cons_of_mem _ ha)) (hstep s hs a List.mem_cons_self _ h1) h2

/-- The packets of peer `i`. -/
def packets (log : List (ℕ × Bytes)) (i : ℕ) : List Bytes := (log.filter fun x => x.1 == i).map (·.2)

theorem recv_ret {k : ℕ} {s s' : Sock} {d : Bytes} (h : recv k s = .ret (d, s')) :
    d ++ s'.inbox = s.inbox ∧ d.length ≤ k ∧ (0 < k → d.length = 0 → s'.inbox = []) := by
  unfold recv at h
  split at h
  · cases h
    refine ⟨List.take_append_drop _ _, List.length_take_le _ _, fun hk h0 => ?_⟩
    simp only [List.length_take] at h0
    exact List.drop_eq_nil_of_le (by omega)
  · cases h
  · cases h
    refine ⟨List.take_append_drop _ _, by simp only [List.length_take]; omega, fun hk h0 => ?_⟩
    simp only [List.length_take] at h0
    exact List.drop_eq_nil_of_le (by omega)

theorem readLoop_ret (fuel : ℕ) : ∀ {todo : ℕ} {got pkt : Bytes} {s s' : Sock} {e : Bool}, todo ≤ fuel →
    readLoop fuel todo got s = .ret (pkt, s', e) →
    ∃ d, pkt = got ++ d ∧ d ++ s'.inbox = s.inbox ∧ d.length ≤ todo ∧ (d.length < todo → s'.inbox = []) := by
  induction fuel with
  | zero =>
    intro todo got pkt s s' e hf h
    rw [readLoop] at h
    cases h
    exact ⟨[], by simp, by simp, by simp, fun h => by simp at h; omega⟩
  | succ fuel ih =>
    intro todo got pkt s s' e hf h
    rw [readLoop] at h
    split at h
    · cases h
      exact ⟨[], by simp, by simp, by simp, by intro h; simp_all⟩
    · rename_i ht
      obtain ⟨⟨data, s1⟩, hr, h⟩ := Out.bind_ret h
      obtain ⟨h1, h2, h3⟩ := recv_ret hr
      dsimp only at h
      split at h
      · rename_i h0
        cases h
        have := List.length_eq_zero_iff.1 h0
        subst this
        exact ⟨[], by simp, h1, by simp, fun _ => h3 (by omega) rfl⟩
      · rename_i h0
        obtain ⟨d, e1, e2, e3, e4⟩ := ih (by omega) h
        refine ⟨data ++ d, by rw [e1, List.append_assoc], by rw [List.append_assoc, e2, h1], ?_, fun hl => e4 ?_⟩
        · rw [List.length_append]; omega
        · rw [List.length_append] at hl; omega

theorem read_ret {size : ℕ} {s s' : Sock} {pkt : Bytes} (h : read size s = .ret (pkt, s')) :
    pkt ++ s'.inbox = s.inbox ∧ pkt.length ≤ size ∧ (pkt.length < size → s'.inbox = []) := by
  unfold read at h
  split at h
  · cases h
  split at h
  · cases h
  obtain ⟨⟨p, s1, e⟩, h1, h2⟩ := Out.bind_ret h
  cases h2
  obtain ⟨d, rfl, e2, e3, e4⟩ := readLoop_ret _ le_rfl h1
  have hi : (if (e && decide (pkt.length < size)) = true then { s1 with connected := false } else s1).inbox = s1.inbox := by
    split <;> rfl
  rw [hi]
  exact ⟨e2, e3, e4⟩

structure Inv (proc : Proc V) (size : ℕ) (socks : List Sock) (s : St V) : Prop where
  len : s.socks.length = socks.length
  stream : ∀ i (h : i < socks.length) (h' : i < s.socks.length),
    (packets s.log i).flatten ++ s.socks[i].inbox = socks[i].inbox
  lt : ∀ x ∈ s.resp, x.1 < socks.length
  keys : (s.resp.map (·.1)).Nodup
  hist : ∀ i, ∃ rej, (∀ p ∈ rej, p ≠ failMsg ∧ proc p = .ret none) ∧
    match s.get i with
    | none => packets s.log i = rej
    | some v => ∃ pkt, packets s.log i = rej ++ [pkt] ∧ ((pkt = failMsg ∧ v = none) ∨ (pkt ≠ failMsg ∧ proc pkt = .ret v))
  sized : ∀ x ∈ s.log, x.2.length ≤ size ∧ ∀ h : x.1 < s.socks.length, x.2.length < size → s.socks[x.1].inbox = []

variable {proc : Proc V} {size : ℕ} {socks : List Sock} {s s' s'' : St V} {i : ℕ} {pkt : Bytes}

theorem packets_append (log : List (ℕ × Bytes)) (i j : ℕ) (p : Bytes) :
    packets (log ++ [(j, p)]) i = packets log i ++ if j = i then [p] else [] := by
  unfold packets
  rw [List.filter_append, List.map_append]
  congr 1
  by_cases h : j = i <;> simp [List.filter_cons, h]

theorem get_cons (s : St V) (i j : ℕ) (v : Option V) (socks : List Sock) (log : List (ℕ × Bytes)) :
    St.get ⟨socks, (j, v) :: s.resp, log⟩ i = if i = j then some v else s.get i := by
  unfold St.get
  rw [List.lookup_cons]
  by_cases h : i = j
  · simp [h]
  · have h' : (i == j) = false := by simpa using h
    simp only [h', if_neg h]

theorem get_none_not_mem (h : s.get i = none) : i ∉ s.resp.map (·.1) := by
  unfold St.get at h
  rw [List.lookup_eq_none_iff] at h
  intro hm
  obtain ⟨x, hx, rfl⟩ := List.mem_map.1 hm
  exact absurd (h x hx) (by simp)

/-- What a read changes. -/
theorem readAt_ret (h : readAt size i s = .ret (pkt, s')) :
    ∃ hi : i < s.socks.length, ∃ k, s' = ⟨s.socks.set i k, s.resp, s.log ++ [(i, pkt)]⟩ ∧ pkt ++ k.inbox = s.socks[i].inbox ∧
      pkt.length ≤ size ∧ (pkt.length < size → k.inbox = []) := by
  unfold readAt at h
  split at h
  · cases h
  · rename_i k0 hk
    obtain ⟨hi, hk⟩ := List.getElem?_eq_some_iff.1 hk
    obtain ⟨⟨p, k⟩, h1, h2⟩ := Out.bind_ret h
    cases h2
    obtain ⟨e1, e2, e3⟩ := read_ret h1
    exact ⟨hi, k, rfl, by rw [hk]; exact e1, e2, e3⟩

/-- A packet is read from a peer that has not answered yet, and is refused or becomes its answer. -/
theorem Inv.answer (g : Inv proc size socks s) (hn : s.get i = none) (h : readAt size i s = .ret (pkt, s')) :
    (pkt ≠ failMsg → proc pkt = .ret none → Inv proc size socks s') ∧
    ∀ v, ((pkt = failMsg ∧ v = none) ∨ (pkt ≠ failMsg ∧ proc pkt = .ret v)) →
      Inv proc size socks { s' with resp := (i, v) :: s'.resp } := by
  obtain ⟨hi, k, rfl, e1, e2, e3⟩ := readAt_ret h
  have hlen : (s.socks.set i k).length = socks.length := by rw [List.length_set, g.len]
  have hstream : ∀ j (h : j < socks.length) (h' : j < (s.socks.set i k).length),
      (packets (s.log ++ [(i, pkt)]) j).flatten ++ (s.socks.set i k)[j].inbox = socks[j].inbox := by
    intro j h h'
    rw [packets_append]
    have h2 : j < s.socks.length := by rw [g.len]; exact h
    by_cases hj : i = j
    · subst hj
      rw [if_pos rfl, List.getElem_set_self, List.flatten_append, List.append_assoc, ← g.stream i h h2, ← e1]
      simp
    · rw [if_neg hj, List.append_nil, List.getElem_set_ne hj]
      exact g.stream j h h2
  have hsized : ∀ x ∈ s.log ++ [(i, pkt)], x.2.length ≤ size ∧
      ∀ h : x.1 < (s.socks.set i k).length, x.2.length < size → (s.socks.set i k)[x.1].inbox = [] := by
    intro x hx
    rw [List.mem_append, List.mem_singleton] at hx
    rcases hx with hx | rfl
    · refine ⟨(g.sized x hx).1, fun h hs => ?_⟩
      have h2 : x.1 < s.socks.length := by simpa using h
      have h3 := (g.sized x hx).2 h2 hs
      by_cases hj : i = x.1
      · subst hj
        rw [List.getElem_set_self]
        rw [h3] at e1
        exact (List.append_eq_nil_iff.1 e1).2
      · rw [List.getElem_set_ne hj]
        exact h3
    · refine ⟨e2, fun h hs => ?_⟩
      rw [List.getElem_set_self]
      exact e3 hs
  have hold : ∀ j, i ≠ j → packets (s.log ++ [(i, pkt)]) j = packets s.log j := by
    intro j hj
    rw [packets_append, if_neg hj, List.append_nil]
  obtain ⟨rej, r1, r2⟩ := g.hist i
  rw [hn] at r2
  have hnew : packets (s.log ++ [(i, pkt)]) i = rej ++ [pkt] := by
    rw [packets_append, if_pos rfl, r2]
  refine ⟨fun hf hp => ⟨hlen, hstream, g.lt, g.keys, fun j => ?_, hsized⟩, fun v hv => ⟨hlen, hstream, ?_, ?_, fun j => ?_, hsized⟩⟩
  · by_cases hj : i = j
    · subst hj
      refine ⟨rej ++ [pkt], ?_, ?_⟩
      · intro p hp'
        rw [List.mem_append, List.mem_singleton] at hp'
        rcases hp' with hp' | rfl
        · exact r1 p hp'
        · exact ⟨hf, hp⟩
      · show match s.get i with | none => _ | some v => _
        rw [hn]
        exact hnew
    · obtain ⟨rej, q1, q2⟩ := g.hist j
      refine ⟨rej, q1, ?_⟩
      show match s.get j with | none => packets (s.log ++ [(i, pkt)]) j = _ | some v => ∃ p, packets (s.log ++ [(i, pkt)]) j = _ ∧ _
      rw [hold j hj]
      exact q2
  · intro x hx
    rw [List.mem_cons] at hx
    rcases hx with rfl | hx
    · show i < socks.length
      rw [← g.len]; exact hi
    · exact g.lt x hx
  · rw [List.map_cons, List.nodup_cons]
    exact ⟨get_none_not_mem hn, g.keys⟩
  · rw [get_cons s]
    by_cases hj : i = j
    · subst hj
      rw [if_pos rfl]
      exact ⟨rej, r1, pkt, hnew, hv⟩
    · rw [if_neg (fun h => hj h.symm)]
      obtain ⟨rej, q1, q2⟩ := g.hist j
      refine ⟨rej, q1, ?_⟩
      rw [hold j hj]
      exact q2

theorem Inv.early {pending : ℕ → ℕ} (g : Inv proc size socks s) (hn : s.get i = none)
    (h : early proc size pending s i = .ret s') : Inv proc size socks s' ∧ ∀ j, j ≠ i → s'.get j = s.get j := by
  unfold Mux.early at h
  split at h
  · obtain ⟨⟨p, s1⟩, h1, h2⟩ := Out.bind_ret h
    have k := g.answer hn h1
    obtain ⟨-, q, rfl, -⟩ := readAt_ret h1
    dsimp only at h2
    split at h2
    · rename_i hf
      cases h2
      exact ⟨k.2 none (.inl ⟨hf, rfl⟩), fun j hj => by rw [get_cons s, if_neg hj]⟩
    · rename_i hf
      obtain ⟨v, h3, h4⟩ := Out.bind_ret h2
      cases h4
      exact ⟨k.2 v (.inr ⟨hf, h3⟩), fun j hj => by rw [get_cons s, if_neg hj]⟩
  · cases h
    exact ⟨g, fun _ _ => rfl⟩

theorem Inv.ready {fds : List (Int × ℕ)} {fd : Int} (g : Inv proc size socks s)
    (h : ready proc size fds s fd = .ret s') : Inv proc size socks s' := by
  unfold Mux.ready at h
  split at h
  · cases h
  · split at h
    · cases h; exact g
    · rename_i i _ hn
      have hn : s.get i = none := by simpa using hn
      obtain ⟨⟨p, s1⟩, h1, h2⟩ := Out.bind_ret h
      have k := g.answer hn h1
      dsimp only at h2
      split at h2
      · rename_i hf
        cases h2
        exact k.2 none (.inl ⟨hf, rfl⟩)
      · rename_i hf
        obtain ⟨v, h3, h4⟩ := Out.bind_ret h2
        cases v with
        | none =>
          cases h4
          exact k.1 hf h3
        | some v =>
          cases h4
          exact k.2 (some v) (.inr ⟨hf, h3⟩)

theorem Inv.wait {n : ℕ} (sched : List (List Int)) : ∀ {s s' : St V}, Inv proc size socks s →
    wait proc size n sched s = .ret s' → Inv proc size socks s' ∧ n ≤ s'.resp.length := by
  induction sched with
  | nil =>
    intro s s' g h
    unfold Mux.wait at h
    split at h
    · rename_i hl
      cases h; exact ⟨g, hl⟩
    split at h
    · cases h
    · cases h
  | cons r sched ih =>
    intro s s' g h
    unfold Mux.wait at h
    split at h
    · rename_i hl
      cases h; exact ⟨g, hl⟩
    split at h
    · cases h
    · obtain ⟨s1, h1, h2⟩ := Out.bind_ret h
      exact ih (Out.foldlM_ret (P := Inv proc size socks) (fun s g fd _ s' h => g.ready h) g h1) h2

theorem Inv.start : Inv proc size socks ⟨socks, [], []⟩ :=
  ⟨rfl, fun _ _ _ => rfl, fun _ h => (by cases h), List.nodup_nil, fun _ => ⟨[], fun _ h => (by cases h), rfl⟩,
    fun _ h => (by cases h)⟩

theorem Inv.earlies {pending : ℕ → ℕ} (n : ℕ) : ∀ {s' : St V},
    (List.range n).foldlM (Mux.early proc size pending) ⟨socks, [], []⟩ = .ret s' →
    Inv proc size socks s' ∧ ∀ j, n ≤ j → s'.get j = none := by
  induction n with
  | zero => intro s' h; cases h; exact ⟨Inv.start, fun _ _ => rfl⟩
  | succ n ih =>
    intro s' h
    rw [List.range_succ, List.foldlM_append] at h
    obtain ⟨s1, h1, h2⟩ := Out.bind_ret h
    obtain ⟨g, hg⟩ := ih h1
    rw [List.foldlM_cons] at h2
    obtain ⟨s2, h2, h3⟩ := Out.bind_ret h2
    cases h3
    obtain ⟨g', k⟩ := g.early (hg n le_rfl) h2
    exact ⟨g', fun j hj => by rw [k j (by omega)]; exact hg j (by omega)⟩

/-- What `gather` returns. -/
theorem gather_ret {hashable : V → Bool} {n : Option ℕ} {pending : ℕ → ℕ} {sched : List (List Int)}
    {res : List (Option V)} (h : gather proc hashable size n pending sched socks = .ret (res, s)) :
    Inv proc size socks s ∧ n.getD socks.length ≤ s.resp.length ∧
    res = (List.range socks.length).map (fun i => (s.get i).join) := by
  unfold gather at h
  obtain ⟨s1, h1, h⟩ := Out.bind_ret h
  obtain ⟨s2, h2, h⟩ := Out.bind_ret h
  obtain ⟨r, h3, h⟩ := Out.bind_ret h
  cases h
  obtain ⟨g, hl⟩ := Inv.wait sched (Inv.earlies _ h1).1 h2
  refine ⟨g, hl, ?_⟩
  unfold collect at h3
  split at h3
  · cases h3
  split at h3
  · cases h3
  · cases h3; rfl

end Verif.Mux
