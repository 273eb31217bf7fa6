import Verif.Base.C

/-!
# What an observer of the running time sees

A function in `T` returns its outcome and the trace of what an attacker who measures time or watches the caches can learn
from its run: the outcome of every test that depends on data, where and how much memory is accessed, and the return value
of calls of libsodium that test their arguments. Straight-line code, also loops with a constant number of rounds, leaves no
event. libsodium's operations on scalars and its hashes are taken to leak nothing but lengths.
-/

namespace Verif.Ct

/-- Functions of libsodium whose return value can be observed: they return early if they fail, or the caller tests the
return value. -/
inductive Fn
  | mlock
  | scalarmult
  | base
  | add
  | valid
  | invert
  | memcmp
  deriving DecidableEq

inductive Ev
  | branch (b : Bool)             -- outcome of a test
  | access (off len : ℕ)          -- memory access
  | call (f : Fn) (ret : Int)     -- call of libsodium
  | opened (l : List UInt8)       -- code that may leak all of these bytes
  deriving DecidableEq

structure T (α : Type) where
  evs : List Ev
  res : C α

namespace T

variable {α β : Type}

protected def bind (x : T α) (f : α → T β) : T β :=
  match x.res with
  | .ok a => ⟨x.evs ++ (f a).evs, (f a).res⟩
  | .ub u => ⟨x.evs, .ub u⟩

instance : Monad T where
  pure a := ⟨[], .ok a⟩
  bind := T.bind

@[simp] theorem res_pure (a : α) : (pure a : T α).res = .ok a := rfl
@[simp] theorem evs_pure (a : α) : (pure a : T α).evs = [] := rfl

@[simp] theorem res_bind (x : T α) (f : α → T β) : (x >>= f).res = x.res >>= fun a => (f a).res := by
  show (T.bind x f).res = _
  unfold T.bind
  cases x.res <;> rfl

theorem evs_bind_ok {x : T α} {a : α} (h : x.res = .ok a) (f : α → T β) : (x >>= f).evs = x.evs ++ (f a).evs := by
  show (T.bind x f).evs = _
  unfold T.bind
  rw [h]

theorem evs_bind_ub {x : T α} {u : UB} (h : x.res = .ub u) (f : α → T β) : (x >>= f).evs = x.evs := by
  show (T.bind x f).evs = _
  unfold T.bind
  rw [h]

/-- A test that depends on data: `if`, `?:`, the condition of a loop. -/
def branch (c : Prop) [Decidable c] (x y : T α) : T α :=
  ⟨.branch (decide c) :: (if c then x else y).evs, (if c then x else y).res⟩

@[simp] theorem res_branch (c : Prop) [Decidable c] (x y : T α) : (branch c x y).res = if c then x.res else y.res := by
  unfold branch
  split <;> rfl

def ub (u : UB) : T α := ⟨[], .ub u⟩

/-- A call of libsodium that returns `r`. -/
def call (f : Fn) (r : Int) : T Unit := ⟨[.call f r], .ok ()⟩

/-- An access to memory whose result is known. -/
def touch (off len : ℕ) : T Unit := ⟨[.access off len], .ok ()⟩

def opened (l : List UInt8) : T Unit := ⟨[.opened l], .ok ()⟩

def ld (buf : List α) (i : ℕ) : T α := ⟨[.access i 1], Verif.ld buf i⟩
def st (buf : List α) (i : ℕ) (a : α) : T (List α) := ⟨[.access i 1], Verif.st buf i a⟩
def rd (buf : List α) (off n : ℕ) : T (List α) := ⟨[.access off n], Verif.rd buf off n⟩
def wr (buf : List α) (off : ℕ) (src : List α) : T (List α) := ⟨[.access off src.length], Verif.wr buf off src⟩

@[simp] theorem res_ub (u : UB) : (ub u : T α).res = .ub u := rfl
@[simp] theorem res_call (f : Fn) (r : Int) : (call f r).res = .ok () := rfl
@[simp] theorem res_touch (i n : ℕ) : (touch i n).res = .ok () := rfl
@[simp] theorem res_opened (l : List UInt8) : (opened l).res = .ok () := rfl
@[simp] theorem res_ld (l : List α) (i : ℕ) : (ld l i).res = Verif.ld l i := rfl
@[simp] theorem res_st (l : List α) (i : ℕ) (a : α) : (st l i a).res = Verif.st l i a := rfl
@[simp] theorem res_rd (l : List α) (i n : ℕ) : (rd l i n).res = Verif.rd l i n := rfl
@[simp] theorem res_wr (l : List α) (i : ℕ) (s : List α) : (wr l i s).res = Verif.wr l i s := rfl

/-- The loop of `Verif.forLeU8`. -/
def forLeU8 {σ : Type} (body : UInt8 → σ → T σ) (n : UInt8) : (fuel : ℕ) → (i : UInt8) → σ → T σ
  | 0, _, _ => ub .diverge
  | fuel + 1, i, s => branch (i ≤ n) (body i s >>= forLeU8 body n fuel (i + 1)) (pure s)

@[simp] theorem res_forLeU8 {σ : Type} (body : UInt8 → σ → T σ) (n : UInt8) : ∀ (fuel : ℕ) (i : UInt8) (s : σ),
    (forLeU8 body n fuel i s).res = Verif.forLeU8 (fun i s => (body i s).res) n fuel i s
  | 0, _, _ => rfl
  | fuel + 1, i, s => by
    unfold forLeU8 Verif.forLeU8
    rw [res_branch, res_bind]
    simp only [res_forLeU8 body n fuel, res_pure]

end T

end Verif.Ct
