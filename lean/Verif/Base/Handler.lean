import Verif.Base.C

/-!
# Functions with a state and early returns

`H σ α` is a computation on the state `σ` that ends with a value, with `return e` of the enclosing C function, or with
undefined behaviour. The state survives an early return. `H.Wp` is the weakest precondition of such a computation.
-/

namespace Verif

/-- A computation on a state with early return of an integer. -/
def H (σ α : Type) : Type := σ → C (Except Int α × σ)

namespace H

variable {σ α β : Type}

protected def bind (m : H σ α) (f : α → H σ β) : H σ β := fun s =>
  match m s with
  | .ok (.ok a, s') => f a s'
  | .ok (.error e, s') => .ok (.error e, s')
  | .ub u => .ub u

instance : Monad (H σ) where
  pure a := fun s => .ok (.ok a, s)
  bind := H.bind

/-- `return e;` of the C function. -/
def ret (e : Int) : H σ α := fun s => .ok (.error e, s)

/-- The whole state. -/
def get : H σ σ := fun s => .ok (.ok s, s)

/-- Update of the state. -/
def modify (f : σ → σ) : H σ Unit := fun s => .ok (.ok (), f s)

/-- A computation that does not touch the state. -/
def lift (x : C α) : H σ α := fun s =>
  match x with
  | .ok a => .ok (.ok a, s)
  | .ub u => .ub u

/-- `for(i=0;i<n;i++) body`. -/
def loop (body : ℕ → H σ Unit) : (m i : ℕ) → H σ Unit
  | 0, _ => pure ()
  | m + 1, i => do
    body i
    loop body m (i + 1)

/-- `for(i=0;i<n;i++) body`. -/
def forN (n : ℕ) (body : ℕ → H σ Unit) : H σ Unit := loop body n 0

/-- The result of a C function with return type `int`: an early return or the value `r` of the last `return`. -/
def result (m : H σ Int) (s : σ) : C (Int × σ) :=
  match m s with
  | .ok (.ok r, s') => .ok (r, s')
  | .ok (.error e, s') => .ok (e, s')
  | .ub u => .ub u

/-- Weakest precondition: `Q` after normal termination, `E` after an early return, `U` for undefined behaviour. -/
def Wp (m : H σ α) (U : Prop) (E : Int → σ → Prop) (Q : α → σ → Prop) (s : σ) : Prop :=
  match m s with
  | .ok (.ok a, s') => Q a s'
  | .ok (.error e, s') => E e s'
  | .ub _ => U

section Rules

variable {U : Prop} {E : Int → σ → Prop} {Q : α → σ → Prop} {s : σ}

theorem wp_pure (a : α) : Wp (pure a : H σ α) U E Q s ↔ Q a s := Iff.rfl
theorem wp_ret (e : Int) : Wp (ret e : H σ α) U E Q s ↔ E e s := Iff.rfl
theorem wp_get {Q : σ → σ → Prop} : Wp (get : H σ σ) U E Q s ↔ Q s s := Iff.rfl
theorem wp_modify {Q : Unit → σ → Prop} (f : σ → σ) : Wp (modify f) U E Q s ↔ Q () (f s) := Iff.rfl

theorem wp_bind {Q : β → σ → Prop} (m : H σ α) (f : α → H σ β) :
    Wp (m >>= f) U E Q s ↔ Wp m U E (fun a s' => Wp (f a) U E Q s') s := by
  show Wp (H.bind m f) U E Q s ↔ _
  unfold Wp H.bind
  cases hm : m s with
  | ok p => obtain ⟨r, s'⟩ := p; cases r <;> rfl
  | ub u => rfl

theorem wp_lift (x : C α) : Wp (lift x) U E Q s ↔ (match x with | .ok a => Q a s | .ub _ => U) := by
  unfold Wp lift; cases x <;> rfl

theorem wp_lift_ok {x : C α} {a : α} (h : x = .ok a) : Wp (lift x) U E Q s ↔ Q a s := by
  subst h; rfl

theorem wp_ite {p : Prop} [Decidable p] (m m' : H σ α) :
    Wp (if p then m else m') U E Q s ↔ (p → Wp m U E Q s) ∧ (¬ p → Wp m' U E Q s) := by
  split <;> simp [*]

theorem Wp.mono {U' : Prop} {E' : Int → σ → Prop} {Q' : α → σ → Prop} {m : H σ α} (h : Wp m U E Q s)
    (hU : U → U') (hE : ∀ e s', E e s' → E' e s') (hQ : ∀ a s', Q a s' → Q' a s') : Wp m U' E' Q' s := by
  unfold Wp at *
  split <;> simp_all

theorem wp_loop {body : ℕ → H σ Unit} {I : ℕ → σ → Prop} :
    ∀ (m i : ℕ) (s : σ), I i s →
      (∀ k s, i ≤ k → k < i + m → I k s → Wp (body k) U E (fun _ s' => I (k + 1) s') s) →
      Wp (loop body m i) U E (fun _ s' => I (i + m) s') s
  | 0, i, s, h, _ => by simpa [loop, wp_pure] using h
  | m + 1, i, s, h, hb => by
    unfold loop
    rw [wp_bind]
    refine (hb i s (Nat.le_refl i) (by omega) h).mono id (fun _ _ h => h) ?_
    intro _ s' hs'
    have := wp_loop m (i + 1) s' hs' (fun k s h1 h2 h3 => hb k s (by omega) (by omega) h3)
    rwa [show i + 1 + m = i + (m + 1) by omega] at this

/-- Invariant rule for loops. -/
theorem wp_forN {body : ℕ → H σ Unit} {n : ℕ} {Q : Unit → σ → Prop} (I : ℕ → σ → Prop) (h0 : I 0 s)
    (hb : ∀ k s, k < n → I k s → Wp (body k) U E (fun _ s' => I (k + 1) s') s)
    (hQ : ∀ s, I n s → Q () s) : Wp (forN n body) U E Q s := by
  have := wp_loop (U := U) (E := E) (I := I) n 0 s h0 (fun k s _ h2 h3 => hb k s (by omega) h3)
  exact this.mono id (fun _ _ h => h) (fun _ s' h => hQ s' (by simpa using h))

theorem wp_result {m : H σ Int} {P : Int → σ → Prop} :
    Wp m False P P s ↔ ∃ r s', result m s = .ok (r, s') ∧ P r s' := by
  unfold Wp result
  cases hm : m s with
  | ok p => obtain ⟨r, s'⟩ := p; cases r <;> simp
  | ub u => simp

theorem wlp_result {m : H σ Int} {P : Int → σ → Prop} :
    Wp m True P P s ↔ ∀ r s', result m s = .ok (r, s') → P r s' := by
  unfold Wp result
  cases hm : m s with
  | ok p =>
    obtain ⟨r, s'⟩ := p
    cases r <;> simp only [C.ok.injEq, Prod.mk.injEq, and_imp] <;>
      exact ⟨fun h r s' h1 h2 => h1 ▸ h2 ▸ h, fun h => h _ _ rfl rfl⟩
  | ub u => simp

end Rules

end H

end Verif
