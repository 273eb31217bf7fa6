import Verif.Spec.Python
import Verif.Props.Toprf
import Verif.Props.Dkg

/-!
# Lemmas about the wrapper
-/

namespace Verif.Py

open Spec.Python

variable {α β : Type}

theorem reaches_raiseIf {p : Prop} [Decidable p] {k : Res α} : Reaches (raiseIf p k) ↔ ¬ p ∧ Reaches k := by
  unfold raiseIf Reaches
  split
  · rename_i h
    exact ⟨fun ⟨c, hc⟩ => (by cases hc), fun h' => absurd h h'.1⟩
  · rename_i h
    exact ⟨fun h' => ⟨h, h'⟩, fun h' => h'.2⟩

theorem reaches_orRaise {x : Option β} {k : β → Res α} : Reaches (orRaise x k) ↔ ∃ b, x = some b ∧ Reaches (k b) := by
  unfold orRaise Reaches
  cases x with
  | none => exact ⟨fun ⟨c, hc⟩ => (by cases hc), fun ⟨b, h, _⟩ => by cases h⟩
  | some b => exact ⟨fun h => ⟨b, rfl, h⟩, fun ⟨b', h, h'⟩ => by cases h; exact h'⟩

theorem reaches_reached {c : C α} : Reaches (.reached c) ↔ True := ⟨fun _ => trivial, fun _ => ⟨c, rfl⟩⟩

theorem raiseIf_false {p : Prop} [Decidable p] {k : Res α} (h : ¬ p) : raiseIf p k = k := by
  unfold raiseIf; rw [if_neg h]

theorem orRaise_some {b : β} {k : β → Res α} : orRaise (some b) k = k b := rfl

theorem notBytes_iff {v : Val} {n : ℕ} : ¬ notBytes v n ↔ BytesOf v n := by
  unfold notBytes BytesOf
  cases v <;> simp [Val.len, Val.isBytes]

theorem handled_reached {c : C α} (h : c.Safe) : Handled (.reached c) := ⟨c, rfl, h⟩

theorem b32At_ok {buf : Bytes} {off : ℕ} (h : off + 32 ≤ buf.length) : ∃ b, b32At buf off = .ok b := by
  unfold b32At
  rw [rd_ok h, C.ok_bind]
  exact ⟨_, rfl⟩

theorem shareAt_ok {buf : Bytes} {i : ℕ} (h : 33 * i + 33 ≤ buf.length) : ∃ s, shareAt buf i = .ok s := by
  unfold shareAt
  obtain ⟨b, hb⟩ := b32At_ok (buf := buf) (off := 33 * i + 1) (by omega)
  rw [ld_ok (by omega), C.ok_bind, hb, C.ok_bind]
  exact ⟨_, rfl⟩

theorem mapC_ok {f : α → C β} {l : List α} {P : β → Prop} (h : ∀ a ∈ l, ∃ b, f a = .ok b ∧ P b) :
    ∃ bs, mapC f l = .ok bs ∧ bs.length = l.length ∧ ∀ b ∈ bs, P b := by
  induction l with
  | nil => exact ⟨[], rfl, rfl, fun _ h => (by cases h)⟩
  | cons a l ih =>
    obtain ⟨b, hb, hp⟩ := h a List.mem_cons_self
    obtain ⟨bs, hbs, hl, hps⟩ := ih fun a ha => h a (List.mem_cons_of_mem _ ha)
    refine ⟨b :: bs, by rw [mapC, hb, C.ok_bind, hbs, C.ok_bind], by rw [List.length_cons, hl, List.length_cons], ?_⟩
    intro x hx
    rcases List.mem_cons.1 hx with rfl | hx
    · exact hp
    · exact hps x hx

theorem sharesAt_ok {buf : Bytes} {k : ℕ} (h : 33 * k ≤ buf.length) : ∃ ss, sharesAt buf k = .ok ss ∧ ss.length = k := by
  obtain ⟨ss, h1, h2, -⟩ := mapC_ok (f := shareAt buf) (l := List.range k) (P := fun _ => True) (by
    intro i hi
    rw [List.mem_range] at hi
    obtain ⟨s, hs⟩ := shareAt_ok (buf := buf) (i := i) (by omega)
    exact ⟨s, hs, trivial⟩)
  exact ⟨ss, h1, by rw [h2, List.length_range]⟩

theorem rowsAt_ok {buf : Bytes} {k t : ℕ} (h : 32 * (k * t) ≤ buf.length) :
    ∃ rs, rowsAt buf k t = .ok rs ∧ rs.length = k ∧ ∀ r ∈ rs, r.length = t := by
  obtain ⟨rs, h1, h2, h3⟩ := mapC_ok
    (f := fun i => mapC (fun j => b32At buf (32 * (i * t + j))) (List.range t)) (l := List.range k)
    (P := fun r => r.length = t) (by
      intro i hi
      rw [List.mem_range] at hi
      obtain ⟨r, e1, e2, -⟩ := mapC_ok (f := fun j => b32At buf (32 * (i * t + j))) (l := List.range t)
        (P := fun _ => True) (by
          intro j hj
          rw [List.mem_range] at hj
          have : i * t + j + 1 ≤ k * t := by
            have : (i + 1) * t ≤ k * t := Nat.mul_le_mul_right _ hi
            have e : (i + 1) * t = i * t + t := by ring
            omega
          obtain ⟨b, hb⟩ := b32At_ok (buf := buf) (off := 32 * (i * t + j)) (by omega)
          exact ⟨b, hb, trivial⟩)
      exact ⟨r, e1, by rw [e2, List.length_range]⟩)
  exact ⟨rs, h1, by rw [h2, List.length_range], h3⟩

theorem u8_toNat {z : ℤ} (h0 : 0 ≤ z) (h : z ≤ 255) : (u8 z).toNat = z.toNat := by
  unfold u8
  rw [Int.emod_eq_of_lt h0 (by omega), UInt8.toNat_ofNat']
  omega

theorem fits {z : ℤ} (h0 : 0 ≤ z) (h : z ≤ 255) : ¬ ¬ Fits z := by
  rw [not_not]
  constructor <;> omega

/-- Parts of 33 bytes. -/
theorem join_parts : ∀ {vs : List Val}, (∀ v ∈ vs, BytesOf v 33) → ∃ b, join vs = some b ∧ b.length = 33 * vs.length := by
  intro vs
  induction vs with
  | nil => intro _; exact ⟨[], rfl, rfl⟩
  | cons v vs ih =>
    intro h
    obtain ⟨b, rfl, hb⟩ := h v List.mem_cons_self
    obtain ⟨bs, hbs, hl⟩ := ih fun v hv => h v (List.mem_cons_of_mem _ hv)
    unfold join at hbs ⊢
    rw [Option.map_eq_some_iff] at hbs
    obtain ⟨l, hl1, rfl⟩ := hbs
    refine ⟨b ++ l.flatten, ?_, ?_⟩
    · rw [List.mapM_cons]
      show (Option.bind (some b) _).map _ = _
      rw [Option.bind_some, hl1]
      rfl
    · rw [List.length_append, hb, hl, List.length_cons]
      ring

theorem not_badParts {vs : List Val} : ¬ badParts vs ↔ ∀ v ∈ vs, BytesOf v 33 := by
  unfold badParts
  rw [not_not]
  refine forall₂_congr fun v _ => ?_
  rw [← notBytes_iff, notBytes, not_or, not_not, Bool.not_eq_false]
  exact and_comm

end Verif.Py
