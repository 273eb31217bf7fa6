import Mathlib.Data.List.Basic

/-!
# Outcomes of C functions and memory accesses

A modelled C function that can run into undefined behaviour returns `C α`: either a value or the reason for the
undefined behaviour. Buffers are lists whose length is the extent of the allocation.
-/

namespace Verif

/-- Reasons for undefined behaviour (or non-termination) of a modelled function. -/
inductive UB
  | oob        -- access outside of an object
  | vla        -- variable length array whose size is not positive
  | null       -- null pointer dereference
  | freed      -- use of a freed object
  | doubleFree -- free of a freed object
  | uninit     -- use of an indeterminate pointer
  | diverge    -- loop that never ends
  deriving DecidableEq, Repr

/-- Outcome of a C function: a value or undefined behaviour. -/
inductive C (α : Type) where
  | ok (a : α)
  | ub (u : UB)
  deriving DecidableEq, Repr

namespace C

variable {α β : Type}

protected def bind (x : C α) (f : α → C β) : C β :=
  match x with
  | ok a => f a
  | ub u => ub u

instance : Monad C where
  pure := ok
  bind := C.bind

@[simp] theorem pure_eq (a : α) : (pure a : C α) = ok a := rfl
@[simp] theorem ok_bind (a : α) (f : α → C β) : (ok a >>= f) = f a := rfl
@[simp] theorem ub_bind (u : UB) (f : α → C β) : ((ub u : C α) >>= f) = ub u := rfl

instance : LawfulMonad C := LawfulMonad.mk'
  (id_map := by intro α x; cases x <;> rfl)
  (pure_bind := by intros; rfl)
  (bind_assoc := by intro α β γ x f g; cases x <;> rfl)

/-- The outcome is not undefined behaviour. -/
def Safe (x : C α) : Prop := ∃ a, x = ok a

theorem bind_eq_ok {x : C α} {f : α → C β} {b : β} :
    (x >>= f) = ok b ↔ ∃ a, x = ok a ∧ f a = ok b := by
  cases x <;> simp

@[simp] theorem map_ok (f : α → β) (a : α) : f <$> (ok a) = ok (f a) := rfl

theorem safe_ok (a : α) : Safe (ok a) := ⟨a, rfl⟩
theorem not_safe_ub (u : UB) : ¬ Safe (ub u : C α) := by rintro ⟨a, h⟩; cases h

theorem Safe.bind {x : C α} {f : α → C β} (hx : Safe x) (hf : ∀ a, x = ok a → Safe (f a)) :
    Safe (x >>= f) := by
  obtain ⟨a, rfl⟩ := hx; exact hf a rfl

end C

section Memory

variable {α : Type}

/-- Read of `n` elements at offset `off`. -/
def rd (buf : List α) (off n : ℕ) : C (List α) :=
  if off + n ≤ buf.length then .ok ((buf.drop off).take n) else .ub .oob

/-- Write of the elements `src` at offset `off` (`memcpy` into a buffer). -/
def wr (buf : List α) (off : ℕ) (src : List α) : C (List α) :=
  if off + src.length ≤ buf.length then .ok (buf.take off ++ src ++ buf.drop (off + src.length))
  else .ub .oob

/-- Read of one element. -/
def ld (buf : List α) (i : ℕ) : C α :=
  match buf[i]? with
  | some a => .ok a
  | none => .ub .oob

/-- Write of one element. -/
def st (buf : List α) (i : ℕ) (a : α) : C (List α) :=
  if i < buf.length then .ok (buf.set i a) else .ub .oob

theorem rd_ok {buf : List α} {off n : ℕ} (h : off + n ≤ buf.length) :
    rd buf off n = .ok ((buf.drop off).take n) := by simp [rd, h]

theorem wr_ok {buf : List α} {off : ℕ} {src : List α} (h : off + src.length ≤ buf.length) :
    wr buf off src = .ok (buf.take off ++ src ++ buf.drop (off + src.length)) := by simp [wr, h]

theorem ld_ok {buf : List α} {i : ℕ} (h : i < buf.length) : ld buf i = .ok buf[i] := by
  simp [ld, h]

theorem st_ok {buf : List α} {i : ℕ} {a : α} (h : i < buf.length) : st buf i a = .ok (buf.set i a) := by
  simp [st, h]

theorem wr_length {buf buf' : List α} {off : ℕ} {src : List α} (h : wr buf off src = .ok buf') :
    buf'.length = buf.length := by
  unfold wr at h
  split at h
  · cases h; simp; omega
  · cases h

theorem rd_length {buf x : List α} {off n : ℕ} (h : rd buf off n = .ok x) : x.length = n := by
  unfold rd at h
  split at h
  · cases h; simp; omega
  · cases h

end Memory

/-- `for(uint8_t i=start; i<=n; i++) body` with the wrap-around of the 8-bit counter. The counter runs through at
most 256 values before it repeats; `fuel` counts them and running out of fuel is divergence. -/
def forLeU8 {σ : Type} (body : UInt8 → σ → C σ) (n : UInt8) : (fuel : ℕ) → (i : UInt8) → σ → C σ
  | 0, _, _ => .ub .diverge
  | fuel + 1, i, s => if i ≤ n then body i s >>= forLeU8 body n fuel (i + 1) else .ok s

/-- Without wrap-around the 8-bit loop is a fold over `i, i+1, …, n`. -/
theorem forLeU8_eq {σ : Type} (body : UInt8 → σ → C σ) (n : UInt8) (hn : n.toNat < 255) :
    ∀ (fuel : ℕ) (i : UInt8) (s : σ), i.toNat ≤ n.toNat + 1 → n.toNat + 1 - i.toNat < fuel →
      forLeU8 body n fuel i s =
        (List.range' i.toNat (n.toNat + 1 - i.toNat)).foldlM (fun s k => body (UInt8.ofNat k) s) s := by
  intro fuel
  induction fuel with
  | zero => intro i s _ h; omega
  | succ f ih =>
    intro i s hi hf
    unfold forLeU8
    by_cases h : i ≤ n
    · have h' : i.toNat ≤ n.toNat := h
      have h1 : (i + 1).toNat = i.toNat + 1 := by
        rw [UInt8.toNat_add]; simp; omega
      have h2 : n.toNat + 1 - i.toNat = (n.toNat - i.toNat) + 1 := by omega
      rw [if_pos h, h2, List.range'_succ, List.foldlM_cons]
      simp only [UInt8.ofNat_toNat]
      congr 1
      funext s'
      rw [ih (i + 1) s' (by omega) (by omega), h1]
      congr 2
      omega
    · have h' : ¬ i.toNat ≤ n.toNat := h
      have : n.toNat + 1 - i.toNat = 0 := by omega
      rw [if_neg h, this]; rfl

end Verif
