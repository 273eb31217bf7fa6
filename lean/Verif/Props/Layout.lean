import Verif.Model.Layout
import Mathlib.Tactic.Ring

/-!
# Property of the structures that Python shares with C: C92
-/

namespace Verif.Props

open Layout

/-- Two layouts agree: every member of the C structure has the same place and size in the Python structure. -/
def Agree (c p : List Field) : Prop :=
  ∀ x ∈ place 0 c, ∃ y ∈ place 0 p, y.1.name = x.1.name ∧ y.1.size = x.1.size ∧ y.2 = x.2

instance (c p : List Field) : Decidable (Agree c p) :=
  inferInstanceAs (Decidable (∀ x ∈ place 0 c, ∃ y ∈ place 0 p, y.1.name = x.1.name ∧ y.1.size = x.1.size ∧ y.2 = x.2))

theorem roundUp_spec {a : ℕ} (h : 0 < a) (x : ℕ) : x ≤ roundUp x a ∧ roundUp x a < x + a ∧ a ∣ roundUp x a := by
  have h1 := Nat.div_add_mod (x + a - 1) a
  have h2 := Nat.mod_lt (x + a - 1) h
  have h3 : roundUp x a = a * ((x + a - 1) / a) := Nat.mul_comm _ _
  refine ⟨by omega, by omega, by rw [h3]; exact Nat.dvd_mul_right _ _⟩

theorem endOf_ge : ∀ (fs : List Field) (o : ℕ), (∀ f ∈ fs, 0 < f.align) → o ≤ endOf o fs
  | [], _, _ => Nat.le_refl _
  | f :: fs, o, h => by
    have := (roundUp_spec (h f (by simp)) o).1
    have := endOf_ge fs (roundUp o f.align + f.size) fun f hf => h f (by simp [hf])
    rw [endOf]
    omega

theorem place_spec : ∀ (fs : List Field) (o : ℕ), (∀ f ∈ fs, 0 < f.align) →
    (∀ p ∈ place o fs, o ≤ p.2 ∧ p.1.align ∣ p.2 ∧ p.2 + p.1.size ≤ endOf o fs) ∧
    (place o fs).Pairwise (fun p q => p.2 + p.1.size ≤ q.2) ∧ (place o fs).map (·.1) = fs
  | [], _, _ => by simp [place]
  | f :: fs, o, h => by
    have hr := roundUp_spec (h f (by simp)) o
    have h' : ∀ f ∈ fs, 0 < f.align := fun f hf => h f (by simp [hf])
    obtain ⟨h1, h2, h3⟩ := place_spec fs (roundUp o f.align + f.size) h'
    have he := endOf_ge fs (roundUp o f.align + f.size) h'
    rw [place, endOf]
    refine ⟨?_, ?_, by rw [List.map_cons, h3]⟩
    · intro p hp
      rcases List.mem_cons.mp hp with rfl | hp
      · exact ⟨hr.1, hr.2.2, he⟩
      · obtain ⟨a, b, c⟩ := h1 p hp
        exact ⟨by omega, b, c⟩
    · rw [List.pairwise_cons]
      exact ⟨fun q hq => (h1 q hq).1, h2⟩

theorem le_alignOf : ∀ (fs : List Field), 1 ≤ alignOf fs
  | [] => Nat.le_refl _
  | _ :: fs => Nat.le_trans (le_alignOf fs) (Nat.le_max_right _ _)

/-- C92, layouts: the members of a structure lie one after the other without overlap, aligned, and inside its size. -/
theorem C92_layout {fs : List Field} (h : ∀ f ∈ fs, 0 < f.align) :
    (place 0 fs).map (·.1) = fs ∧ (∀ p ∈ place 0 fs, p.1.align ∣ p.2 ∧ p.2 + p.1.size ≤ Layout.sizeOf fs) ∧
    (place 0 fs).Pairwise fun p q => p.2 + p.1.size ≤ q.2 := by
  obtain ⟨h1, h2, h3⟩ := place_spec fs 0 h
  refine ⟨h3, fun p hp => ⟨(h1 p hp).2.1, Nat.le_trans (h1 p hp).2.2 ?_⟩, h2⟩
  exact (roundUp_spec (le_alignOf fs) _).1

/-- C92: on 64-bit platforms every member has the same place and size on both sides, and Python knows no others than C, apart
from its padding. -/
theorem C92_agree :
    Agree (peerC lp64) (peerPy lp64) ∧ Agree (tpC lp64) (tpPy lp64) ∧ Agree cheaterC cheaterPy ∧
    ((peerPy lp64).map (·.name)).filter (· ≠ "padding") = (peerC lp64).map (·.name) ∧
    ((tpPy lp64).map (·.name)).filter (· ≠ "padding") = (tpC lp64).map (·.name) ∧
    Layout.sizeOf cheaterC = Layout.sizeOf cheaterPy := by
  decide +kernel

/-- C92, memory: if the allocator gives addresses that are multiples of 16, the wrapper finds an address for the state,
and every member that the C functions access lies in the buffer.

Partial: the state should be aligned at 64 (see `C92_align_violated`). -/
theorem C92_inside_partial {b : ℕ} (hb : 16 ∣ b) :
    ∃ s, stateAddr b = some s ∧ 32 ∣ s ∧
      (∀ p ∈ place 0 (peerC lp64), b ≤ s + p.2 ∧ s + p.2 + p.1.size ≤ b + bufSize (peerPy lp64)) ∧
      ∀ p ∈ place 0 (tpC lp64), b ≤ s + p.2 ∧ s + p.2 + p.1.size ≤ b + bufSize (tpPy lp64) := by
  have h32 : (b + b % 32) % 32 = 0 := by omega
  have hle : b % 32 ≤ 16 := by omega
  refine ⟨b + b % 32, by rw [stateAddr, if_neg (by simpa using h32)], by omega, ?_, ?_⟩
  · have h : ∀ p ∈ place 0 (peerC lp64), p.2 + p.1.size + 16 ≤ bufSize (peerPy lp64) := by decide +kernel
    intro p hp
    have := h p hp
    omega
  · have h : ∀ p ∈ place 0 (tpC lp64), p.2 + p.1.size + 16 ≤ bufSize (tpPy lp64) := by decide +kernel
    intro p hp
    have := h p hp
    omega

/-- C92, exception: for all other addresses the wrapper raises an exception, although every buffer contains an aligned address
with room for the state. -/
theorem C92_raises_violated (b : ℕ) :
    (stateAddr b = none ↔ ¬ 16 ∣ b) ∧ ∃ s, 32 ∣ s ∧ b ≤ s ∧ s + Layout.sizeOf (peerPy lp64) ≤ b + bufSize (peerPy lp64) := by
  constructor
  · rw [stateAddr]
    split <;> simp <;> omega
  · refine ⟨roundUp b 32, (roundUp_spec (by decide) b).2.2, (roundUp_spec (by decide) b).1, ?_⟩
    have := (roundUp_spec (a := 32) (by decide) b).2.1
    unfold bufSize
    omega

/-- C92, alignment: the wrapper looks for a multiple of 32. The hash state is declared with an alignment of 64 and gets it for
half of the buffers only; the rest of the whole structure, which consists of padding, may lie outside the buffer. -/
theorem C92_align_violated {b s : ℕ} (hs : stateAddr b = some s) :
    (∃ p ∈ place 0 (peerC lp64), p.1.name = "transcript" ∧ (p.1.align ∣ s + p.2 ↔ b % 64 = 0 ∨ b % 64 = 48)) ∧
    (∃ p ∈ place 0 (tpC lp64), p.1.name = "transcript" ∧ (p.1.align ∣ s + p.2 ↔ b % 64 = 0 ∨ b % 64 = 48)) ∧
    (b % 32 = 16 → b + bufSize (peerPy lp64) < s + Layout.sizeOf (peerC lp64)) := by
  have h1 : ∃ p ∈ place 0 (peerC lp64), p.1.name = "transcript" ∧ p.1.align = 64 ∧ p.2 = 448 := by decide +kernel
  have h2 : ∃ p ∈ place 0 (tpC lp64), p.1.name = "transcript" ∧ p.1.align = 64 ∧ p.2 = 256 := by decide +kernel
  have h3 : bufSize (peerPy lp64) = 904 := by decide +kernel
  have h4 : Layout.sizeOf (peerC lp64) = 896 := by decide +kernel
  rw [stateAddr] at hs
  split at hs
  · exact absurd hs (by simp)
  · rename_i h
    rw [not_not] at h
    obtain rfl := Option.some.inj hs
    refine ⟨?_, ?_, fun hb => ?_⟩
    · obtain ⟨p, hp, hn, ha, ho⟩ := h1
      exact ⟨p, hp, hn, by rw [ha, ho]; omega⟩
    · obtain ⟨p, hp, hn, ha, ho⟩ := h2
      exact ⟨p, hp, hn, by rw [ha, ho]; omega⟩
    · rw [h3, h4]
      omega

/-- C92, other platforms: on 32-bit platforms the padding is wrong, and Python looks for the result of a peer in the middle
of other memory. -/
theorem C92_word_violated :
    (offsetOf (peerC i386) "share" = some 768 ∧ offsetOf (peerPy i386) "share" = some 776) ∧
    (offsetOf (peerC arm32) "share" = some 768 ∧ offsetOf (peerPy arm32) "share" = some 784) ∧
    ¬ Agree (tpC i386) (tpPy i386) ∧ ¬ Agree (tpC arm32) (tpPy arm32) := by
  decide +kernel

/-! ### Examples -/

/-- The state of a peer, with members of different alignments. -/
example : (∀ f ∈ peerC lp64, 0 < f.align) ∧ offsetOf (peerC lp64) "tp_last_ts" = some 304 ∧
    offsetOf (peerC lp64) "my_complaints" = some 416 := by decide +kernel

/-- A buffer whose state is not aligned, and one for which there is an exception. -/
example : stateAddr 0x7f0010 = some 0x7f0020 ∧ ¬ 64 ∣ 0x7f0020 + 448 ∧ stateAddr 0x7f0018 = none := by decide

end Verif.Props
