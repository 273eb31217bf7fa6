import Verif.Model.Attack
import Verif.Props.Oprf

/-!
# A server that evaluates with the key 1 (C73)
-/

set_option linter.unusedSectionVars false

namespace Verif.Props

open Verif.Attack Ristretto

section
variable (G : Type) [Ristretto G] [Hashes]

theorem toB64_list {l : Bytes} (h : l.length = 64) : (Oprf.toB64 l).toList = l := by
  apply List.ext_getElem
  · simp [h]
  · intro i h1 h2
    simp [Oprf.toB64, h2]

theorem guess_take (rwd : B64) (x : Bytes) (n : ℕ) (hx : n ≤ x.length) (hn : n ≤ 65535) (rwd0 : B64) :
    guess G rwd x n rwd0 = .ok (if rwd = Hashes.sha512 (Spec.finalizeInput (x.take n)
      (enc (Spec.hashToGroup G Oprf.sha (x.take (n % 256)))).toList) then 0 else -1) := by
  have hl : (x.take n).length = n := by rw [List.length_take]; omega
  have h2 : ∀ N y0, Oprf.finalize true x (UInt16.ofNat n) N y0 =
      .ok (0, Hashes.sha512 (Spec.finalizeInput (x.take n) N.toList)) := by
    intro N y0
    have h := C04_finalize_rfc (x.take n) (by omega) N y0
    rw [hl] at h
    rw [← h]
    have h16 : (UInt16.ofNat n).toNat = n := UInt16.toNat_ofNat_of_lt' (show n < 65536 by omega)
    unfold Oprf.finalize rd
    rw [h16, if_pos (show 0 + n ≤ x.length by omega), if_pos (show 0 + n ≤ (x.take n).length by omega)]
    simp only [List.drop_zero, List.take_take, min_self]
  unfold guess
  have h1 : (UInt8.ofNat n).toNat = n % 256 := by simp
  rw [Oprf.hashToGroup_ok G x _ (by rw [h1]; exact (Nat.mod_le _ _).trans hx), h1]
  simp only [C.ok_bind, ne_eq, not_true_eq_false, if_false]
  rw [h2]
  simp only [C.ok_bind, not_true_eq_false, if_false]
  split <;> simp_all

theorem guess_eq (rwd : B64) (x : Bytes) (hx : x.length ≤ 65535) (rwd0 : B64) :
    guess G rwd x x.length rwd0 = .ok (if rwd = Hashes.sha512 (Spec.finalizeInput x
      (enc (Spec.hashToGroup G Oprf.sha (x.take (x.length % 256)))).toList) then 0 else -1) := by
  rw [guess_take G rwd x _ (le_refl _) hx, List.take_length]

/-- **C73.** A client that talks to `tamper` completes the protocol for every password and blinding factor and gets an
output for which `guess` says yes with the password, and yes with no other password unless SHA-512 has a collision. -/
theorem C73_guess (x : Bytes) (hx : x.length ≤ 255) (r : B32) (hr : RandomScalar r) (hH : Spec.hashToGroup G Oprf.sha x ≠ 0)
    (scratch r0 b0 beta0 N0 : B32) (y0 rwd0 : B64) :
    ∃ alpha beta N : B32, ∃ rwd : B64, Oprf.blind G true scratch x (UInt8.ofNat x.length) r r0 b0 = .ok (0, r, alpha) ∧
      tamper G alpha beta0 = (0, beta) ∧ Oprf.unblind G true r beta N0 = (0, N) ∧
      Oprf.finalize true x (UInt16.ofNat x.length) N y0 = .ok (0, rwd) ∧ guess G rwd x x.length rwd0 = .ok 0 ∧
      ∀ x' : Bytes, x'.length ≤ 65535 → x' ≠ x → guess G rwd x' x'.length rwd0 = .ok (-1) ∨
        ∃ a b : Bytes, a ≠ b ∧ Hashes.sha512 a = Hashes.sha512 b := by
  have hk : maskedVal k = 1 := by decide +kernel
  obtain ⟨alpha, beta, N, rwd, h1, h2, h3, h4, h5⟩ := C01_oprf_correct G x hx k r (by rw [hk]; exact one_ne_zero) hr hH
    scratch r0 b0 beta0 N0 y0
  have h6 : tamper G alpha beta0 = (0, beta) := by
    unfold tamper
    unfold Oprf.evaluate at h2
    rw [h2]
    rfl
  have h7 : rwd = Hashes.sha512 (Spec.finalizeInput x (enc (Spec.hashToGroup G Oprf.sha x)).toList) := by
    apply Vector.toList_inj.1
    rw [h5, hk]
    simp only [Spec.oprf, one_smul]
    rfl
  refine ⟨alpha, beta, N, rwd, h1, h6, h3, h4, ?_, fun x' hx' hne => ?_⟩
  · rw [guess_eq G rwd x (by omega), h7]
    have : x.take (x.length % 256) = x := by
      rw [Nat.mod_eq_of_lt (by omega), List.take_length]
    simp [this]
  · rw [guess_eq G rwd x' hx']
    by_cases h : rwd = Hashes.sha512 (Spec.finalizeInput x' (enc (Spec.hashToGroup G Oprf.sha (x'.take (x'.length % 256)))).toList)
    · right
      refine ⟨_, _, ?_, h7.symm.trans h⟩
      intro he
      exact hne (C04_finalize_injective _ _ _ _ (by omega) hx' he).1.symm
    · left
      rw [if_neg h]

/-- **C73.** The output does not depend on any key: whoever sees it can test passwords without a server. -/
theorem C73_offline (x : Bytes) (hx : x.length ≤ 255) (rwd rwd0 : B64) :
    guess G rwd x x.length rwd0 = .ok 0 ↔ rwd.toList = Spec.oprf G Oprf.sha 1 x := by
  have h1 : x.take (x.length % 256) = x := by
    rw [Nat.mod_eq_of_lt (by omega), List.take_length]
  have h2 : Spec.oprf G Oprf.sha 1 x =
      (Hashes.sha512 (Spec.finalizeInput x (enc (Spec.hashToGroup G Oprf.sha x)).toList)).toList := by
    simp only [Spec.oprf, one_smul]
    rfl
  rw [guess_eq G rwd x (by omega), h1, h2, Vector.toList_inj]
  split <;> simp_all

/-- **C73.** The self-test prints -1 for the password without its terminating zero, unless SHA-512 has a collision, and 0
for the password with it. -/
theorem C73_test (x : Bytes) (h1 : 1 ≤ x.length) (hx : x.length ≤ 255) (r : B32) (hr : RandomScalar r)
    (hH : Spec.hashToGroup G Oprf.sha x ≠ 0) (scratch : B32) (rwd0 rwd1 rwd2 : B64) :
    test G x scratch r rwd0 rwd1 rwd2 = .ok (0, some (-1, 0)) ∨ ∃ a b : Bytes, a ≠ b ∧ Hashes.sha512 a = Hashes.sha512 b := by
  obtain ⟨alpha, beta, N, rwd, e1, e2, e3, e4, e5, e6⟩ := C73_guess G x hx r hr hH scratch zero32 zero32 zero32 zero32 rwd0 rwd1
  have hl : (x.take (x.length - 1)).length = x.length - 1 := by rw [List.length_take]; omega
  rcases e6 (x.take (x.length - 1)) (by omega) (fun h => by rw [h] at hl; omega) with h | h
  · left
    have hg : guess G rwd x (x.length - 1) rwd1 = .ok (-1) := by
      rw [guess_eq G _ _ (by omega)] at h
      rw [guess_take G _ _ _ (by omega) (by omega), ← h]
      rw [hl, List.take_take, min_eq_left (Nat.mod_le _ _)]
    have hg2 : guess G rwd x x.length rwd2 = .ok 0 := by
      rw [← e5, guess_eq G _ _ (by omega), guess_eq G _ _ (by omega)]
    unfold test
    rw [e1]
    simp only [C.ok_bind, ne_eq, not_true_eq_false, if_false, e2, e3, e4, hg, hg2]
  · exact .inr h

/-- **C73.** `attack guess password` exits with 0 exactly for the output of the key 1 under the password (passwords up to 255
bytes); `a` is what can be read at the first argument. -/
theorem C73_main_guess (a pwd : Bytes) (rest : List Bytes) (stdin usage : Bytes) (beta0 scratch rnd : B32) (rwd0 : B64)
    (ha : a.take 6 = chars "guess" ++ [0]) (hl : 7 ≤ a.length) (hp : pwd.length ≤ 255) (hs : 64 ≤ stdin.length) :
    ∃ ret, Attack.main G (a :: (pwd ++ [0]) :: rest) stdin usage beta0 scratch rnd rwd0 = .ok (ret, []) ∧
      (ret = 0 ↔ stdin.take 64 = Spec.oprf G Oprf.sha 1 pwd) := by
  have r1 : sameBytes a (chars "tamper" ++ [0]) 7 = .ok false := by
    have h1 : rd a 0 7 = .ok (a.take 7) := if_pos (by omega)
    have h2 : rd (chars "tamper" ++ [0]) 0 7 = .ok (chars "tamper" ++ [0]) := by decide +kernel
    have h3 : a.take 7 ≠ chars "tamper" ++ [0] := by
      intro h
      have h4 := congrArg (List.take 6) h
      rw [List.take_take] at h4
      have h5 : a.take 6 = (chars "tamper" ++ [0]).take 6 := h4
      rw [ha] at h5
      exact absurd h5 (by decide +kernel)
    simp [sameBytes, h1, h2, h3]
  have r2 : sameBytes a (chars "guess" ++ [0]) 6 = .ok true := by
    have h1 : rd a 0 6 = .ok (a.take 6) := if_pos (by omega)
    have h2 : rd (chars "guess" ++ [0]) 0 6 = .ok (chars "guess" ++ [0]) := by decide +kernel
    simp [sameBytes, h1, h2, ha]
  have hg : ∀ rwd rwd0, guess G rwd (pwd ++ [0]) ((pwd ++ [0]).length - 1) rwd0 = guess G rwd pwd pwd.length rwd0 := by
    intro rwd rwd0
    have e : (pwd ++ [0]).length - 1 = pwd.length := by simp
    rw [e, guess_eq G _ _ (by omega), guess_take G _ _ _ (by simp) (by omega)]
    simp [List.take_append_of_le_length (Nat.mod_le _ _)]
  have ht : (Oprf.toB64 (stdin.take 64)).toList = stdin.take 64 := toB64_list (by rw [List.length_take]; omega)
  have ho := C73_offline G pwd hp (Oprf.toB64 (stdin.take 64)) rwd0
  rw [ht] at ho
  obtain ⟨ret, hr⟩ : ∃ ret, guess G (Oprf.toB64 (stdin.take 64)) pwd pwd.length rwd0 = .ok ret :=
    ⟨_, guess_eq G _ _ (by omega) _⟩
  refine ⟨ret, ?_, ?_⟩
  · simp only [Attack.main, r1, r2, C.ok_bind, hg, hr, if_true]
    simp [Nat.not_lt.2 hs]
  · rw [← ho, hr]
    simp

/-- **C73**, violated: `attack tamper` writes more than the element to its standard output. -/
theorem C73_output_violated (stdin usage : Bytes) (args : List Bytes) (beta0 scratch rnd : B32) (rwd0 : B64) {out : Bytes}
    (h : Attack.main G ((chars "tamper" ++ [0]) :: args) stdin usage beta0 scratch rnd rwd0 = .ok (0, out)) :
    out.length = 42 ∧ out.take 10 = chars "tampering\n" ∧ out.drop 10 = stdin.take 32 := by
  have hb : banner.length = 10 := by decide +kernel
  have hs : sameBytes (chars "tamper" ++ [0]) (chars "tamper" ++ [0]) 7 = .ok true := by decide +kernel
  unfold Attack.main at h
  simp only [hs, C.ok_bind, if_true] at h
  split at h
  · simp at h
  · rename_i hl
    have hk : maskedVal k = 1 := by decide +kernel
    have h32 : (toB32 (stdin.take 32)).toList = stdin.take 32 := toB32_list (by rw [List.length_take]; omega)
    rw [← h32]
    cases hd : dec (G := G) (toB32 (stdin.take 32)) with
    | none => simp [tamper, scalarmult, hd] at h
    | some P =>
      rw [← enc_dec _ _ hd, tamper, scalarmult_enc, hk, one_smul] at h
      rw [← enc_dec _ _ hd]
      by_cases h0 : enc P = zero32
      · simp [h0] at h
      · simp only [h0, if_false, ne_eq, not_true_eq_false] at h
        cases h
        refine ⟨?_, ?_, ?_⟩
        · rw [List.length_append, hb, Vector.length_toList]
        · rw [List.take_append_of_le_length (by omega), List.take_of_length_le (by omega)]
          rfl
        · rw [List.drop_append_of_le_length (by omega), List.drop_of_length_le (by omega)]
          rfl

/-- **C73**, violated: `main` reads 7 bytes of its first argument, also if it is shorter; the documented calls
`attack guess` and `attack test` are among these. -/
theorem C73_argument_violated (a : Bytes) (ha : a.length < 7) (args : List Bytes) (stdin usage : Bytes) (beta0 scratch rnd : B32)
    (rwd0 : B64) : Attack.main G (a :: args) stdin usage beta0 scratch rnd rwd0 = .ub .oob := by
  have h : sameBytes a (chars "tamper" ++ [0]) 7 = .ub .oob := by
    have h : rd a 0 7 = .ub .oob := if_neg (by omega)
    unfold sameBytes
    rw [h]
    rfl
  simp only [Attack.main, h]
  rfl

end

section Toy
attribute [local instance] Ristretto.toy Toy.hashes

example := C73_test (ZMod L) [65, 66, 0] (by decide) (by decide) (B32.ofZ ((5 : ℕ) : ZMod L))
  (Toy.randomScalar 5 (by norm_num) (by norm_num)) (Toy.hashToGroup_ne _)
example : password.length = 52 := by decide +kernel
example := C73_test (ZMod L) password (by decide +kernel) (by decide +kernel) (B32.ofZ ((5 : ℕ) : ZMod L))
  (Toy.randomScalar 5 (by norm_num) (by norm_num)) (Toy.hashToGroup_ne _)
example := C73_guess (ZMod L) [65, 66] (by decide) (B32.ofZ ((5 : ℕ) : ZMod L))
  (Toy.randomScalar 5 (by norm_num) (by norm_num)) (Toy.hashToGroup_ne _)
example := C73_main_guess (ZMod L) (chars "guess" ++ [0, 65]) [65] [] (List.replicate 64 7) [] zero32 zero32 zero32
  (Oprf.toB64 []) (by decide +kernel) (by decide +kernel) (by decide) (by decide)
/-- A call that meets the hypothesis of `C73_output_violated` -/
example : ∃ out, Attack.main (ZMod L) [chars "tamper" ++ [0]] (B32.ofNat 5).toList [] zero32 zero32 zero32 (Oprf.toB64 []) =
    .ok (0, out) := ⟨banner ++ (B32.ofNat 5).toList, by decide +kernel⟩

end Toy

end Verif.Props
