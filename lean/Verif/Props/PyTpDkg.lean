import Verif.Proofs.PyTpDkg
import Verif.Proofs.PeerToy
import Verif.Props.PyDkg

/-!
# Property C100: the Python test of the key generation with trusted party (`/repo/python/tests/test.py:200-286`)

The specification of the result is `tpKeyAt`: the value at `x` of the sum of the polynomials that the five peers drew.
-/

set_option linter.unusedSectionVars false

namespace Verif.Props

open Ristretto Spec Polynomial TpDkg Wire Verif.PyTests Verif.Tests

/-- The sum of the polynomials of the peers at `x`. -/
noncomputable def tpKeyAt (I : Tp.Input) (x : ℕ) : ZMod L :=
  ∑ j ∈ Finset.range 5, ∑ k ∈ Finset.range 3, ((I.env j).rnd.coeff k).val * (x : ZMod L) ^ k

/-- Clocks that run forward within a window of `ts_epsilon = 5` seconds (with no clock of a peer behind the first time that
the trusted party notes), random values as drawn by the library, different Noise keys, and enough memory that can be
locked. -/
structure PyWorks [NoiseCrypto] (I : Tp.Input) (lo : ℕ) : Prop where
  window : 5 ≤ lo
  no_wrap : lo + 2 * 5 < 2 ^ 64
  tpClock : GoodClock lo 5 I.tpEnv.clock
  clock : ∀ i < 5, GoodClock lo 5 (I.env i).clock
  later : ∀ i < 5, ∀ k, I.tpEnv.clock (I.tp0.ticks + 1) ≤ (I.env i).clock k
  mlock : ∀ i < 5, (I.env i).mlock = true
  coeff : ∀ i < 5, ∀ k, RandomScalar ((I.env i).rnd.coeff k)
  keys : ∀ i < 5, ∀ j < 5, NoiseCrypto.xbase (I.env i).rnd.noiseSk = NoiseCrypto.xbase (I.env j).rnd.noiseSk → i = j

section
variable [Signing] [Hashes] [NoiseCrypto] [Mac] (G : Type) [Ristretto G]

theorem PyWorks.honest {I : Tp.Input} {lo : ℕ} (h : PyWorks I lo) : I.setup.Honest lo where
  t_ge := show 2 ≤ 3 by decide
  t_lt := show 3 < 5 by decide
  n_le := show 5 ≤ 128 by decide
  name_pos := show 1 ≤ Tp.nameRead.length by decide
  name_le := show Tp.nameRead.length ≤ 1024 by decide
  msg0 := by simp [Tp.Input.setup]
  tp_lastTs := by simp [Tp.Input.setup]
  tp_sigPks := by simp [Tp.Input.setup]
  tp_commitments := by simp [Tp.Input.setup]
  tp_complaints := by simp [Tp.Input.setup]
  tp_encShares := by
    show (List.replicate (5 * 5 * msg8Size) (0 : UInt8)).length = _
    rw [List.length_replicate]
    rfl
  tp_cheaters := by simp [Tp.Input.setup]
  lastTs := fun _ _ => by simp [Tp.Input.setup]
  sigPks := fun _ _ => by simp [Tp.Input.setup, Tp.padded]
  noisePks := fun _ _ => by simp [Tp.Input.setup, Tp.padded]
  outs := fun _ _ => by simp [Tp.Input.setup]
  ins := fun _ _ => by simp [Tp.Input.setup]
  shares := fun _ _ => by simp [Tp.Input.setup]
  xshares := fun _ _ => by simp [Tp.Input.setup]
  mine := fun _ _ => by simp [Tp.Input.setup]
  commitments := fun _ _ => by simp [Tp.Input.setup]
  complaints := fun _ _ => by simp [Tp.Input.setup]
  window := h.window
  lo_pos := by have := h.window; omega
  no_wrap := h.no_wrap
  tpClock := h.tpClock
  clock := h.clock
  mlock := h.mlock
  coeff := h.coeff
  keys := h.keys
  later := h.later

theorem tpFinal (I : Tp.Input) {i : ℕ} (hi : i < 5) :
    Honest.finalShare I.setup i = share (tpKeyAt I) (i + 1) := by
  have hx : (point (idx i) : ZMod L) = ((i + 1 : ℕ) : ZMod L) := by
    unfold point
    rw [idx_toNat (by omega)]
  have hd : ∀ j, (Honest.dealtTo I.setup j i).value.val =
      ∑ k ∈ Finset.range 3, ((I.env j).rnd.coeff k).val * ((i + 1 : ℕ) : ZMod L) ^ k := by
    intro j
    show (B32.ofZ ((Dkg.dealer 3 (I.env j).rnd.coeff).eval (point (idx i)))).val = _
    rw [B32.val_ofZ, hx]
    have e : List.range 3 = [0, 1, 2] := rfl
    show (polyOf ((List.range 3).map fun k => ((I.env j).rnd.coeff k).val)).eval _ = _
    rw [e]
    simp only [List.map_cons, List.map_nil, polyOf, eval_add, eval_mul, eval_C, eval_X, eval_zero, Finset.sum_range_succ, Finset.sum_range_zero]
    ring
  have hs : ((List.range 5).map fun j => (Honest.dealtTo I.setup j i).value.val).sum = tpKeyAt I (i + 1) := by
    have : ∀ (f : ℕ → ZMod L) m, ((List.range m).map f).sum = ∑ j ∈ Finset.range m, f j := by
      intro f m
      induction m with
      | zero => rfl
      | succ m ih => rw [List.range_succ, List.map_append, List.sum_append, ih, Finset.sum_range_succ]; simp
    rw [this]
    exact Finset.sum_congr rfl fun j _ => hd j
  show (⟨UInt8.ofNat (i + 1), B32.ofZ (((List.range 5).map fun j => (Honest.dealtTo I.setup j i).value.val).sum)⟩ : Share) = _
  rw [hs]
  rfl

/-- A polynomial with the values `tpKeyAt`. -/
theorem tpKeyPoly (I : Tp.Input) : ∃ f : (ZMod L)[X], f.degree < (3 : ℕ) ∧ ∀ x : ℕ, f.eval (x : ZMod L) = tpKeyAt I x := by
  refine ⟨∑ j ∈ Finset.range 5, ∑ k ∈ Finset.range 3, Polynomial.C ((I.env j).rnd.coeff k).val * X ^ k, ?_, fun x => ?_⟩
  · refine lt_of_le_of_lt (degree_sum_le _ _) ((Finset.sup_lt_iff (WithBot.bot_lt_coe 3)).2 fun j _ => ?_)
    refine lt_of_le_of_lt (degree_sum_le _ _) ((Finset.sup_lt_iff (WithBot.bot_lt_coe 3)).2 fun k hk => ?_)
    refine lt_of_le_of_lt (degree_C_mul_X_pow_le _ _) ?_
    exact_mod_cast Finset.mem_range.1 hk
  · simp only [eval_finset_sum, eval_mul, eval_C, eval_pow, eval_X]
    rfl

theorem tpShares (I : Tp.Input) :
    ((List.range 5).map (Honest.finalShare I.setup)).map pack = five (tpKeyAt I) := by
  have : (List.range 5).map (Honest.finalShare I.setup) = (List.range' 1 5).map (share (tpKeyAt I)) := by
    have e1 : (List.range' 1 5).map (share (tpKeyAt I)) = (List.range 5).map fun i => share (tpKeyAt I) (i + 1) := rfl
    rw [e1]
    exact List.map_congr_left fun i hi => tpFinal I (List.mem_range.1 hi)
  rw [this]
  rfl

theorem tpZero (I : Tp.Input) {z : ZMod L} (h0 : z = tpKeyAt I 0) :
    ((∀ i < 5, tpKeyAt I (i + 1) ≠ 0) ∧ z ≠ 0) ↔ ∀ x, x ≤ 5 → tpKeyAt I x ≠ 0 := by
  rw [h0]
  constructor
  · rintro ⟨h1, h0⟩ i hi
    cases i with
    | zero => exact h0
    | succ i => exact h1 i (by omega)
  · intro h
    exact ⟨fun i hi => h (i + 1) (by omega), h 0 (by omega)⟩

/-- **C100, `test_tp_dkg`.** For all random values that libsodium can draw, clocks within the window and contents of the
contexts: the test passes if neither the key nor one of the five final shares is 0. Otherwise pysodium raises an exception.
No assertion fails, and the main loop needs 10 passes. -/
theorem C100_tp_dkg (I : Tp.Input) (lo : ℕ) (h : PyWorks I lo) (k : ℕ) :
    ((∀ x, x ≤ 5 → tpKeyAt I x ≠ 0) → Tp.test G (k + 10) I = .ret ()) ∧
    (¬ (∀ x, x ≤ 5 → tpKeyAt I x ≠ 0) → Tp.test G (k + 10) I = .raised) := by
  obtain ⟨f, hf, hev⟩ := tpKeyPoly I
  rw [Tp.test, Tp.program_eq G _ h.honest k, tpShares, ← tpZero I (z := f.eval 0) (by rw [← hev 0, Nat.cast_zero])]
  exact check_poly G I.junk I.scratch (tpKeyAt I) f hf (fun i _ => hev _)

/-- The check of the example for shares on one polynomial. -/
theorem example_poly (junk : UInt8) (scratch : B32) (x : ℕ → ZMod L) (f : (ZMod L)[X]) (hf : f.degree < (3 : ℕ))
    (he : ∀ i < 5, f.eval ((i + 1 : ℕ) : ZMod L) = x (i + 1)) :
    (((∀ i < 5, x (i + 1) ≠ 0) ∧ f.eval 0 ≠ 0) → Tp.checkExample G (realDkg G junk scratch) (five x) = .ret ()) ∧
    (¬ ((∀ i < 5, x (i + 1) ≠ 0) ∧ f.eval 0 ≠ 0) → Tp.checkExample G (realDkg G junk scratch) (five x) = .raised) := by
  have good : ∀ idxs : List ℕ, idxs.length = 3 → idxs.Nodup → (∀ i ∈ idxs, i < 5) → (∀ i ∈ idxs, x (i + 1) ≠ 0) →
      ∃ ps, powers G (five x) idxs = .ret ps ∧
        (realDkg G junk scratch).thresholdmult ps = .ret (enc (f.eval 0 • (base : G))).toList := by
    intro idxs hl hn h5 h0
    exact ⟨_, powers_ret G x idxs (fun i hi => ⟨h5 i hi, h0 i hi⟩),
      mult_ret G junk scratch x idxs hl hn (fun i hi => ⟨h5 i hi, h0 i hi⟩) f hf (fun i hi => he i (h5 i hi))⟩
  unfold Tp.checkExample
  by_cases h1 : x 1 ≠ 0 ∧ x 2 ≠ 0 ∧ x 3 ≠ 0
  · obtain ⟨n1, n2, n3⟩ := h1
    obtain ⟨p0, a0, b0⟩ := good [0, 1, 2] rfl (by decide) (by decide) (by
      simp only [List.mem_cons, List.not_mem_nil, or_false]
      rintro i (rfl | rfl | rfl)
      exacts [n1, n2, n3])
    rw [a0, ret_bind, b0, ret_bind]
    unfold PyTests.compare
    by_cases n4 : x 4 ≠ 0
    · obtain ⟨p1, a1, b1⟩ := good [2, 0, 3] rfl (by decide) (by decide) (by
        simp only [List.mem_cons, List.not_mem_nil, or_false]
        rintro i (rfl | rfl | rfl)
        exacts [n3, n1, n4])
      rw [a1, ret_bind, b1, ret_bind, assertEqual_self, ret_bind]
      unfold PyTests.compare
      by_cases n5 : x 5 ≠ 0
      · obtain ⟨p2, a2, b2⟩ := good [2, 1, 4] rfl (by decide) (by decide) (by
          simp only [List.mem_cons, List.not_mem_nil, or_false]
          rintro i (rfl | rfl | rfl)
          exacts [n3, n2, n5])
        rw [a2, ret_bind, b2, ret_bind, assertEqual_self, ret_bind]
        unfold PyTests.compare
        rw [ret_bind, reconstruct_ret G junk scratch x f hf (by
          intro i hi
          apply he
          simp only [List.mem_cons, List.not_mem_nil, or_false] at hi
          omega), ret_bind, sodiumBase_eq]
        have hall : ∀ i < 5, x (i + 1) ≠ 0 := by
          intro i hi
          have : i = 0 ∨ i = 1 ∨ i = 2 ∨ i = 3 ∨ i = 4 := by omega
          rcases this with rfl | rfl | rfl | rfl | rfl
          exacts [n1, n2, n3, n4, n5]
        by_cases h0 : f.eval 0 = 0
        · rw [if_pos h0, raised_bind]
          exact ⟨fun h => absurd h0 h.2, fun _ => rfl⟩
        · rw [if_neg h0, ret_bind, assertEqual_self]
          exact ⟨fun _ => rfl, fun h => absurd ⟨hall, h0⟩ h⟩
      · rw [not_not] at n5
        rw [powers_raised G x [2, 1, 4] (by decide) ⟨4, by simp, n5⟩]
        simp only [raised_bind]
        exact ⟨fun h => absurd n5 (h.1 4 (by omega)), fun _ => trivial⟩
    · rw [not_not] at n4
      rw [powers_raised G x [2, 0, 3] (by decide) ⟨3, by simp, n4⟩]
      simp only [raised_bind]
      exact ⟨fun h => absurd n4 (h.1 3 (by omega)), fun _ => trivial⟩
  · have hex : ∃ i ∈ [0, 1, 2], x (i + 1) = 0 := by
      by_contra hc
      simp only [List.mem_cons, List.not_mem_nil, or_false, not_exists, not_and] at hc
      exact h1 ⟨hc 0 (by simp), hc 1 (by simp), hc 2 (by simp)⟩
    rw [powers_raised G x [0, 1, 2] (by decide) hex]
    simp only [raised_bind]
    obtain ⟨i, hi, h0⟩ := hex
    simp only [List.mem_cons, List.not_mem_nil, or_false] at hi
    exact ⟨fun h => absurd h0 (h.1 i (by omega)), fun _ => trivial⟩

/-- **C100, the example.** The same holds for `tpdkg_test.py`, with or without log. -/
theorem C100_example (I : Tp.Input) (lo : ℕ) (h : PyWorks I lo) (k : ℕ) :
    ((∀ x, x ≤ 5 → tpKeyAt I x ≠ 0) → Tp.exampleProg G (k + 10) I = .ret ()) ∧
    (¬ (∀ x, x ≤ 5 → tpKeyAt I x ≠ 0) → Tp.exampleProg G (k + 10) I = .raised) := by
  obtain ⟨f, hf, hev⟩ := tpKeyPoly I
  rw [Tp.exampleProg, Tp.program_eq G _ h.honest k, tpShares, ← tpZero I (z := f.eval 0) (by rw [← hev 0, Nat.cast_zero])]
  exact example_poly G I.junk I.scratch (tpKeyAt I) f hf (fun i _ => hev _)

/-- **C100, the check of the example.** For all five shares: the three combinations of the example are enough. The check
succeeds exactly if no share is 0 and all five lie on one polynomial of degree less than 3 whose value at 0 is not 0. -/
theorem C100_example_shares (junk : UInt8) (scratch : B32) (x : ℕ → ZMod L) :
    Tp.checkExample G (realDkg G junk scratch) (five x) = .ret () ↔
    (∀ i, 1 ≤ i → i ≤ 5 → x i ≠ 0) ∧ ∃ f : (ZMod L)[X], f.degree < (3 : ℕ) ∧
      (∀ i : ℕ, 1 ≤ i → i ≤ 5 → f.eval (i : ZMod L) = x i) ∧ f.eval 0 ≠ 0 := by
  constructor
  · intro h
    simp only [Tp.checkExample, PyTests.compare, bind_ret_iff] at h
    obtain ⟨p0, a0, v0, b0, ⟨⟩, ⟨p1, a1, v1, b1, ⟨⟩, e1, p2, a2, v2, b2, ⟨⟩, e2, -⟩, s, hs, w, hw, -⟩ := h
    have e1 := assertEqual_ret.1 e1
    have e2 := assertEqual_ret.1 e2
    obtain ⟨n0, f0, d0, i0, r0⟩ := triple G junk scratch x [0, 1, 2] rfl (by decide) (by decide) p0 v0 a0 b0
    obtain ⟨n1, f1, d1, i1, r1⟩ := triple G junk scratch x [2, 0, 3] rfl (by decide) (by decide) p1 v1 a1 b1
    obtain ⟨n2, f2, d2, i2, r2⟩ := triple G junk scratch x [2, 1, 4] rfl (by decide) (by decide) p2 v2 a2 b2
    have z01 : f0.eval 0 = f1.eval 0 := toList_enc_inj G (by rw [← r0, ← r1, e1])
    have z02 : f0.eval 0 = f2.eval 0 := toList_enc_inj G (by rw [← r0, ← r2, e2])
    have e01 : f0 = f1 := eq_of_three f0 f1 d0 d1 {0, 1, 3} rfl (by decide) (by
      intro a ha
      simp only [Finset.mem_insert, Finset.mem_singleton] at ha
      rcases ha with rfl | rfl | rfl
      · rw [Nat.cast_zero]; exact z01
      · exact (i0 0 (by simp)).trans (i1 0 (by simp)).symm
      · exact (i0 2 (by simp)).trans (i1 2 (by simp)).symm)
    have e02 : f0 = f2 := eq_of_three f0 f2 d0 d2 {0, 2, 3} rfl (by decide) (by
      intro a ha
      simp only [Finset.mem_insert, Finset.mem_singleton] at ha
      rcases ha with rfl | rfl | rfl
      · rw [Nat.cast_zero]; exact z02
      · exact (i0 1 (by simp)).trans (i2 1 (by simp)).symm
      · exact (i0 2 (by simp)).trans (i2 2 (by simp)).symm)
    refine ⟨five_cases ?_, f0, d0, five_cases ?_, ?_⟩
    · intro i hi
      have : i = 0 ∨ i = 1 ∨ i = 2 ∨ i = 3 ∨ i = 4 := by omega
      rcases this with rfl | rfl | rfl | rfl | rfl
      exacts [n0 0 (by simp), n0 1 (by simp), n0 2 (by simp), n1 3 (by simp), n2 4 (by simp)]
    · intro i hi
      have : i = 0 ∨ i = 1 ∨ i = 2 ∨ i = 3 ∨ i = 4 := by omega
      rcases this with rfl | rfl | rfl | rfl | rfl
      exacts [i0 0 (by simp), i0 1 (by simp), i0 2 (by simp), by rw [e01]; exact i1 3 (by simp),
        by rw [e02]; exact i2 4 (by simp)]
    · rw [reconstruct_ret G junk scratch x f0 d0 i0] at hs
      cases hs
      rw [sodiumBase_eq] at hw
      intro hc
      rw [if_pos hc] at hw
      cases hw
  · rintro ⟨h0, f, hf, he, hz⟩
    exact (example_poly G junk scratch x f hf (fun i hi => he (i + 1) (by omega) (by omega))).1
      ⟨fun i hi => h0 (i + 1) (by omega) (by omega), hz⟩

/-- **C100, negation: the name of the protocol.** The test passes a string and not `bytes`, so the C code gets an array of
`wchar_t` and the length in characters. The name that is bound into the session is not the one that the test states: it
is the first four characters, each followed by three zero bytes, and one byte more. -/
theorem C100_name_violated : Tp.nameRead ≠ [112, 121, 111, 112, 114, 102, 32, 116, 112, 100, 107, 103, 32, 116, 101, 115, 116] ∧
    Tp.nameRead = [112, 0, 0, 0, 121, 0, 0, 0, 111, 0, 0, 0, 112, 0, 0, 0, 114] := by
  constructor <;> decide

end

section Toy
attribute [local instance] Ristretto.toy Toy.hashes Toy.signing Toy.noise Toy.mac

/-- Peer `i` draws the coefficients `a i`. -/
def toyPyInput (a : ℕ → ℕ → B32) : Tp.Input where
  sid := zero32
  seed := zero32
  lt := fun i => B32.ofNat (i + 40)
  tpEnv := ⟨fun _ => 200, false, true, zero32, Toy.rnd, fun _ => 1⟩
  env := fun i => ⟨fun _ => 201, false, true, zero32, { Toy.rnd with noiseSk := B32.ofNat i, coeff := a i }, fun _ => 1⟩
  tp0 := Toy.tp3 0
  peer0 := fun _ => Toy.peer 0
  junk := 0
  scratch := zero32

theorem toyPyInput_works (a : ℕ → ℕ → B32) (ha : ∀ i k, RandomScalar (a i k)) : PyWorks (toyPyInput a) 199 where
  window := by decide
  no_wrap := by decide
  tpClock := ⟨fun _ _ _ => UInt64.le_refl _, fun _ => show 199 ≤ 200 by decide, fun _ => show 200 ≤ 204 by decide⟩
  clock := fun _ _ => ⟨fun _ _ _ => UInt64.le_refl _, fun _ => show 199 ≤ 201 by decide, fun _ => show 201 ≤ 204 by decide⟩
  later := fun _ _ _ => show (200 : UInt64) ≤ 201 by decide
  mlock := fun _ _ => rfl
  coeff := fun i _ k => ha i k
  keys := by
    intro i hi j hj
    show B32.ofNat i = B32.ofNat j → i = j
    interval_cases i <;> interval_cases j <;> decide +kernel

theorem toyPy_key (x : ℕ) (h5 : x ≤ 5) : tpKeyAt (toyPyInput fun _ _ => unit) x ≠ 0 := by
  have : tpKeyAt (toyPyInput fun _ _ => unit) x = keyAt (fun _ _ => unit) (x : ZMod L) := by
    show ∑ j ∈ Finset.range 5, ∑ k ∈ Finset.range 3, unit.val * (x : ZMod L) ^ k = _
    simp only [keyAt, unit_val, List.map_const', List.length_range, List.sum_replicate, Finset.sum_range_succ,
      Finset.sum_range_zero]
    ring
  rw [this]
  exact unit_key x h5

/-- All peers draw 1, 1 and 1. -/
example : Tp.test (ZMod L) 10 (toyPyInput fun _ _ => unit) = .ret () ∧
    Tp.exampleProg (ZMod L) 10 (toyPyInput fun _ _ => unit) = .ret () :=
  ⟨(C100_tp_dkg (ZMod L) _ _ (toyPyInput_works _ fun _ _ => unit_random) 0).1 toyPy_key,
    (C100_example (ZMod L) _ _ (toyPyInput_works _ fun _ _ => unit_random) 0).1 toyPy_key⟩

/-- The peers draw secrets that sum to 0. -/
example : Tp.test (ZMod L) 10 (toyPyInput fun i k => if i = 4 ∧ k = 0 then B32.ofNat (L - 4) else unit) = .raised := by
  have h4 : RandomScalar (B32.ofNat (L - 4)) := by unfold RandomScalar B32.Canonical; decide +kernel
  have hv : (B32.ofNat (L - 4)).val = -4 := by decide +kernel
  refine (C100_tp_dkg (ZMod L) _ _ (toyPyInput_works _ fun i k => ?_) 0).2 fun h => h 0 (by decide) ?_
  · split
    · exact h4
    · exact unit_random
  · show ∑ j ∈ Finset.range 5, ∑ k ∈ Finset.range 3, (if j = 4 ∧ k = 0 then B32.ofNat (L - 4) else unit).val *
      ((0 : ℕ) : ZMod L) ^ k = 0
    simp only [Finset.sum_range_succ, Finset.sum_range_zero, Nat.cast_zero]
    norm_num [unit_val, hv]

end Toy

end Verif.Props
