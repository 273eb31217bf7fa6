import Verif.Spec.Devices
import Verif.Proofs.SessionRun

/-!
# Lemmas on programs that use several devices
-/

set_option linter.unusedSectionVars false

namespace Verif.Noise.Mem

open NoiseCrypto
open Spec.Device Spec.SessionMem Spec.Devices

section
variable [Hashes] [NoiseCrypto]

/-- The blocks of a device and its sessions. -/
structure DevAt (B : Blocks) (dvp : ℕ) (w : World) (ps : List ℕ) : Prop where
  ne : dvp ≠ 0
  rep : ∀ {h0 h : Heap} {F : Blocks}, Sep h0 h (B + F) → ∃ zs, WRep h0 h F dvp w ps zs

/-- The device with its blocks named. -/
theorem WRep.devAt {h0 h : Heap} {F : Blocks} {dvp : ℕ} {w : World} {ps : List ℕ} {zs : List (Option (SnPtr × Sn))}
    (hn : dvp ≠ 0) (s : WRep h0 h F dvp w ps zs) : ∃ B, DevAt B dvp w ps ∧ Sep h0 h (B + F) := by
  obtain ⟨r, istr, ns, hr, hst⟩ := s.rep
  refine ⟨devBlocks dvp r istr w.d w.prologue (xbase w.d.spriv).toList (headOf ns) + cells ns + bodies ns + allB zs,
    ⟨hn, fun {h0' h' F'} hs => ⟨zs, s.sns, s.ps, s.ok, r, istr, ns, ?_, hst⟩⟩, ?_⟩
  · refine ⟨?_, hr.name, hr.nodes, hr.peers, hr.counter, hr.len, hr.prlg, hr.ids⟩
    rw [← add_assoc]
    exact hs
  · have := hr.sep
    rwa [← add_assoc] at this

/-- The blocks of a device, if it is still there. -/
def DevsAt (B : Blocks) (q : ℕ × List ℕ) : Option World → Prop
  | none => B = 0 ∧ q.1 = 0
  | some w => DevAt B q.1 w q.2

/-- The heap holds the devices of a program, and what is left of those that were released. -/
structure MRep (h0 h : Heap) (qs : Held) (s : State) (Bs : List Blocks) (lost : Blocks) : Prop where
  len : Bs.length = s.ws.length
  len' : qs.length = s.ws.length
  at_ : ∀ k (hk : k < s.ws.length), DevsAt (Bs[k]'(len ▸ hk)) (qs[k]'(len' ▸ hk)) s.ws[k]
  card : Multiset.card lost = (s.gone.map fun d => 1 + peerBlocks d.peers).sum
  sep : Sep h0 h (Bs.sum + lost)

theorem sum_set {Bs : List Blocks} {k : ℕ} (hk : k < Bs.length) (B : Blocks) :
    Bs.sum = Bs[k] + (Bs.set k 0).sum ∧ (Bs.set k B).sum = B + (Bs.set k 0).sum := by
  induction Bs generalizing k with
  | nil => simp at hk
  | cons b Bs ih =>
    cases k with
    | zero => simp
    | succ k =>
      obtain ⟨h1, h2⟩ := ih (by simpa using hk)
      simp only [List.sum_cons, List.getElem_cons_succ, List.set_cons_succ]
      rw [h2, h1]
      constructor <;> abel

/-- A device that is changed, with everything else in the frame. -/
theorem MRep.change {h0 h h' : Heap} {qs : Held} {s : State} {Bs : List Blocks} {lost : Blocks} (m : MRep h0 h qs s Bs lost)
    {k : ℕ} (hk : k < s.ws.length) {B : Blocks} {q : ℕ × List ℕ} {o : Option World} (hd : DevsAt B q o) {gone : List Dev}
    {lost' : Blocks} (hc : Multiset.card lost' = (gone.map fun d => 1 + peerBlocks d.peers).sum)
    (hs : Sep h0 h' (B + ((Bs.set k 0).sum + lost'))) :
    MRep h0 h' (qs.set k q) ⟨s.ws.set k o, gone⟩ (Bs.set k B) lost' := by
  refine ⟨by simp [m.len], by simp [m.len'], fun j hj => ?_, hc, ?_⟩
  · simp only [List.length_set] at hj
    simp only [List.getElem_set]
    by_cases e : k = j
    · subst e
      simpa using hd
    · simpa [e] using m.at_ j hj
  · rw [(sum_set (by rw [m.len]; exact hk) B).2, add_assoc]
    exact hs

/-- What the program holds of a device. -/
theorem MRep.get {h0 h : Heap} {qs : Held} {s : State} {Bs : List Blocks} {lost : Blocks} (m : MRep h0 h qs s Bs lost) (k : ℕ) :
    (s.get k = none ∧ (qs.getD k (0, [])).1 = 0) ∨
    ∃ (hk : k < s.ws.length) (w : World), s.get k = some w ∧ s.ws[k] = some w ∧
      ∃ B, B = Bs[k]'(m.len ▸ hk) ∧ DevAt B (qs.getD k (0, [])).1 w (qs.getD k (0, [])).2 := by
  by_cases hk : k < s.ws.length
  · have hq : qs.getD k (0, []) = qs[k]'(m.len' ▸ hk) := by
      rw [List.getD_eq_getElem?_getD, List.getElem?_eq_getElem (m.len' ▸ hk)]
      rfl
    have hg : s.get k = s.ws[k] := by
      rw [State.get, List.getElem?_eq_getElem hk]
      rfl
    have ha := m.at_ k hk
    rw [hq, hg]
    cases hw : s.ws[k] with
    | none =>
      rw [hw] at ha
      exact .inl ⟨rfl, ha.2⟩
    | some w =>
      rw [hw] at ha
      exact .inr ⟨hk, w, rfl, hw, _, rfl, ha⟩
  · left
    have h1 : s.ws[k]? = none := List.getElem?_eq_none (by omega)
    have h2 : qs[k]? = none := List.getElem?_eq_none (by rw [m.len']; omega)
    rw [State.get, h1, List.getD_eq_getElem?_getD, h2]
    exact ⟨rfl, rfl⟩

/-- A call on the heap is the call on values. -/
theorem MRep.step {h0 h : Heap} {qs : Held} {s : State} {Bs : List Blocks} {lost : Blocks} (m : MRep h0 h qs s Bs lost)
    (o : Spec.Devices.Op) :
    ∃ qs' h' Bs' lost', Spec.Devices.stepAt qs o h = .ok (((s.step o).1, qs'), h') ∧ MRep h0 h' qs' (s.step o).2 Bs' lost' := by
  cases o with
  | new prlg name sk spriv =>
    obtain ⟨dvp, h', e, hn, r, istr, hr, hst⟩ := m.sep.create prlg name sk spriv
    have w1 : WRep h0 h' (Bs.sum + lost) dvp (World.new prlg name sk spriv) [] [] :=
      ⟨rfl, rfl, by simp, r, istr, [], by rw [show allB [] = 0 from rfl, zero_add]; exact hr, hst⟩
    obtain ⟨B, hB, hs⟩ := w1.devAt hn
    refine ⟨qs ++ [(dvp, [])], h', Bs ++ [B], lost, by simp only [Spec.Devices.stepAt, run_bind, e, C.ok_bind, run_pure, State.step],
      by simp [State.step, m.len], by simp [State.step, m.len'], fun k hk => ?_, m.card, ?_⟩
    · simp only [State.step, List.length_append, List.length_singleton] at hk
      simp only [State.step]
      rcases Nat.lt_or_ge k s.ws.length with h | h
      · rw [List.getElem_append_left (by rw [m.len]; exact h), List.getElem_append_left (by rw [m.len']; exact h),
          List.getElem_append_left h]
        exact m.at_ k h
      · obtain rfl : k = s.ws.length := by omega
        rw [List.getElem_append_right (by rw [m.len]), List.getElem_append_right (by rw [m.len']),
          List.getElem_append_right (le_refl _)]
        simpa [DevsAt] using hB
    · simp only [List.sum_append, List.sum_singleton]
      convert hs using 1
      abel
  | on k o =>
    rcases m.get k with ⟨h1, h2⟩ | ⟨hk, w, h1, h2, B, rfl, hB⟩
    · exact ⟨qs, h, Bs, lost, by simp only [Spec.Devices.stepAt, h2, if_true, State.step, h1, run_pure],
        by simpa only [State.step, h1] using m⟩
    · have hs : Sep h0 h (Bs[k]'(m.len ▸ hk) + ((Bs.set k 0).sum + lost)) := by
        have := m.sep
        rwa [(sum_set (by rw [m.len]; exact hk) 0).1, add_assoc] at this
      obtain ⟨zs, hw⟩ := hB.rep hs
      obtain ⟨ps', h', zs', e, hw'⟩ := hw.step o
      obtain ⟨B', hB', hs'⟩ := hw'.devAt hB.ne
      refine ⟨qs.set k ((qs.getD k (0, [])).1, ps'), h', Bs.set k B', lost, ?_, ?_⟩
      · simp only [Spec.Devices.stepAt, hB.ne, if_false, run_bind, e, C.ok_bind, run_pure, State.step, h1]
      · simp only [State.step, h1]
        exact m.change hk (q := ((qs.getD k (0, [])).1, ps')) (o := some (w.step o).2) hB' m.card hs'
  | drop k =>
    rcases m.get k with ⟨h1, h2⟩ | ⟨hk, w, h1, h2, B, rfl, hB⟩
    · exact ⟨qs, h, Bs, lost, by simp only [Spec.Devices.stepAt, h2, true_or, if_true, State.step, h1, run_pure],
        by simpa only [State.step, h1] using m⟩
    · have hs : Sep h0 h (Bs[k]'(m.len ▸ hk) + ((Bs.set k 0).sum + lost)) := by
        have := m.sep
        rwa [(sum_set (by rw [m.len]; exact hk) 0).1, add_assoc] at this
      obtain ⟨zs, hw⟩ := hB.rep hs
      have hall : (qs.getD k (0, [])).2.all (· == 0) = w.sns.all Option.isNone := by
        rw [hw.ps, hw.sns, List.all_map, List.all_map, Bool.eq_iff_iff, List.all_eq_true, List.all_eq_true]
        refine forall₂_congr fun z hz => ?_
        cases z with
        | none => simp [ptrOf]
        | some z => simp [ptrOf, (hw.ok z hz).ne]
      by_cases hc : w.sns.all Option.isNone = true
      · obtain ⟨r, istr, ns, hr, hst⟩ := hw.rep
        have hz : allB zs = 0 := by
          refine allB_none fun o ho => ?_
          rw [hw.sns, List.all_map, List.all_eq_true] at hc
          simpa using hc o ho
        rw [hz, zero_add] at hr
        obtain ⟨h', e, s', -⟩ := hr.deviceFree
        refine ⟨qs.set k (0, []), h', Bs.set k 0, ({(r.sk, .bytes w.d.sk.toList)} + bodies ns) + lost, ?_, ?_⟩
        · simp only [Spec.Devices.stepAt, hB.ne, hall, hc, not_true_eq_false, or_self, if_false, run_bind, e, C.ok_bind, run_pure,
            State.step, h1, if_true]
        · simp only [State.step, h1, hc, if_true]
          refine m.change hk (q := (0, [])) (o := none) ⟨rfl, rfl⟩ ?_ ?_
          · simp only [Multiset.card_add, Multiset.card_singleton, card_bodies, List.map_cons, List.sum_cons, m.card, hr.peers]
          · convert s' using 1
            abel
      · refine ⟨qs, h, Bs, lost, ?_, ?_⟩
        · have hor : (qs.getD k (0, [])).1 = 0 ∨ ¬ (qs.getD k (0, [])).2.all (· == 0) = true := .inr (by rw [hall]; exact hc)
          simp only [Spec.Devices.stepAt, if_pos hor, State.step, h1, run_pure, if_neg hc]
        · simpa only [State.step, h1, if_neg hc] using m

/-- A program on the heap is the program on values. -/
theorem MRep.run {α : Type} (p : Prog α) {h0 h : Heap} {qs : Held} {s : State} {Bs : List Blocks} {lost : Blocks}
    (m : MRep h0 h qs s Bs lost) :
    ∃ qs' h' Bs' lost', p.runAt qs h = .ok (((p.run s).1, qs'), h') ∧ MRep h0 h' qs' (p.run s).2 Bs' lost' := by
  induction p generalizing h qs s Bs lost with
  | done a => exact ⟨qs, h, Bs, lost, rfl, m⟩
  | call o next ih =>
    obtain ⟨qs1, h1, Bs1, l1, e1, m1⟩ := m.step o
    obtain ⟨qs2, h2, Bs2, l2, e2, m2⟩ := ih _ m1
    exact ⟨qs2, h2, Bs2, l2, by simp only [Prog.runAt, run_bind, e1, C.ok_bind, e2, Prog.run], m2⟩

theorem MRep.init {h0 : Heap} (hk : HeapOk h0) : MRep h0 h0 [] State.init [] 0 :=
  ⟨rfl, rfl, fun k hk => absurd hk (by simp [State.init]), rfl, by simpa using Sep.init hk⟩

/-- When all devices are released, only the lost blocks are left. -/
theorem MRep.lost_only {h0 h : Heap} {qs : Held} {s : State} {Bs : List Blocks} {lost : Blocks} (m : MRep h0 h qs s Bs lost)
    (hall : ∀ o ∈ s.ws, o = none) : Sep h0 h lost := by
  have : Bs.sum = 0 := by
    refine List.sum_eq_zero fun B hB => ?_
    obtain ⟨k, hk, rfl⟩ := List.getElem_of_mem hB
    have hk' : k < s.ws.length := by rw [← m.len]; exact hk
    have := m.at_ k hk'
    rw [hall _ (List.getElem_mem hk')] at this
    exact this.1
  have h := m.sep
  rwa [this, zero_add] at h

/-! ### Lists of calls -/

theorem Prog.map_run {α β : Type} (f : α → β) (p : Prog α) (s : State) : (p.map f).run s = (f (p.run s).1, (p.run s).2) := by
  induction p generalizing s with
  | done a => rfl
  | call o next ih => exact ih _ _

theorem callsOf_run (os : List Spec.Devices.Op) (s : State) : (callsOf os).run s = s.run os := by
  induction os generalizing s with
  | nil => rfl
  | cons o os ih =>
    simp only [callsOf, Prog.run, State.run, Prog.map_run, ih]

theorem State.run_append (xs ys : List Spec.Devices.Op) (s : State) :
    s.run (xs ++ ys) = ((s.run xs).1 ++ ((s.run xs).2.run ys).1, ((s.run xs).2.run ys).2) := by
  induction xs generalizing s with
  | nil => rfl
  | cons o os ih => simp only [List.cons_append, State.run, ih]

theorem State.run_length (os : List Spec.Devices.Op) (s : State) : (s.run os).1.length = os.length := by
  induction os generalizing s with
  | nil => rfl
  | cons o os ih => simp only [State.run, List.length_cons, ih]

theorem State.created (os : List Spec.Devices.Op) (s : State) : (s.run os).2.ws.length = s.ws.length + Spec.Devices.created os := by
  induction os generalizing s with
  | nil => rfl
  | cons o os ih =>
    simp only [State.run, ih]
    cases o with
    | new => simp only [State.step, List.length_append, List.length_singleton, Spec.Devices.created]; omega
    | on k o => simp only [State.step, Spec.Devices.created]; split <;> simp
    | drop k =>
      simp only [State.step, Spec.Devices.created]
      split
      · rfl
      · split <;> simp

/-- Calls on other devices do not matter. -/
theorem State.alone (k : ℕ) (os : List Spec.Devices.Op) (hd : .drop k ∉ os) (s : State) (w : World) (hw : s.get k = some w) :
    answersOn k os (s.run os).1 = (w.run (opsOn k os)).1.map .answer ∧
      (s.run os).2.get k = some (w.run (opsOn k os)).2 := by
  induction os generalizing s w with
  | nil => exact ⟨rfl, hw⟩
  | cons o os ih =>
    have hd' : .drop k ∉ os := fun h => hd (List.mem_cons_of_mem _ h)
    have hlt : k < s.ws.length := by
      by_contra h
      rw [State.get, List.getElem?_eq_none (by omega)] at hw
      cases hw
    cases o with
    | new prlg name sk spriv =>
      refine ih hd' _ _ ?_
      rw [← hw]
      simp only [State.step, State.get]
      rw [List.getElem?_append_left hlt]
    | on j o =>
      by_cases hj : j = k
      · subst hj
        have hs : (s.step (.on j o)).1 = .answer (w.step o).1 ∧ (s.step (.on j o)).2.get j = some (w.step o).2 := by
          simp only [State.step, hw, true_and]
          simp [State.get, hlt]
        obtain ⟨h1, h2⟩ := ih hd' _ _ hs.2
        simp only [State.run, answersOn, opsOn, if_true, World.run, List.map_cons, h1, h2, hs.1, and_self]
      · have hs : (s.step (.on j o)).2.get k = some w := by
          rw [← hw]
          simp only [State.step]
          split
          · rfl
          · simp [State.get, List.getElem?_set_ne hj]
        obtain ⟨h1, h2⟩ := ih hd' _ _ hs
        simp only [State.run, answersOn, opsOn, hj, if_false, h1, h2, and_self]
    | drop j =>
      have hj : j ≠ k := fun h => hd (by rw [h]; exact List.mem_cons_self)
      refine ih hd' _ _ ?_
      rw [← hw]
      simp only [State.step]
      split
      · rfl
      · split
        · simp [State.get, List.getElem?_set_ne hj]
        · rfl

end

end Verif.Noise.Mem
