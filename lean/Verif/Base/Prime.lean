import Mathlib.NumberTheory.LucasPrimality
import Mathlib.Data.ZMod.Basic
import Mathlib.Tactic.NormNum.Prime

/-!
# The order of ristretto255

`L` is the group order used by libsodium (`crypto_core_ristretto255`), which every scalar computation of
`/repo/src/oprf.c`, `toprf.c`, `dkg.c` and `mpmult.c` works modulo. Its primality is proved here with a
recursive Pratt certificate, so that `ZMod L` is a field.
-/

namespace Verif

/-- `a ^ e % p` by repeated squaring on the binary digits of `e`, `fuel` digits at most. -/
def powMod (p : ℕ) : (fuel a e : ℕ) → ℕ
  | 0, _, _ => 1 % p
  | fuel + 1, a, e =>
    let r := powMod p fuel (a * a % p) (e / 2)
    if e % 2 = 0 then r else a * r % p

theorem powMod_eq (p : ℕ) : ∀ (fuel a e : ℕ), e < 2 ^ fuel → powMod p fuel a e = a ^ e % p := by
  intro fuel
  induction fuel with
  | zero => intro a e h; have : e = 0 := by simpa using h
            subst this; simp [powMod]
  | succ n ih =>
    intro a e h
    have h2 : e / 2 < 2 ^ n := by omega
    have key : (a * a % p) ^ (e / 2) % p = (a ^ (2 * (e / 2))) % p := by
      rw [← Nat.pow_mod, ← pow_two, ← pow_mul]
    simp only [powMod, ih _ _ h2, key]
    split
    · rename_i h0
      have : 2 * (e / 2) = e := by omega
      rw [this]
    · rename_i h0
      have : e = 2 * (e / 2) + 1 := by omega
      conv_rhs => rw [this, pow_succ, mul_comm]
      rw [Nat.mul_mod, Nat.mod_mod, ← Nat.mul_mod]

theorem prime_of_pratt (p a fuel : ℕ) (fs : List ℕ) (hfs : ∀ q ∈ fs, q.Prime)
    (h : (decide (1 < p) && decide (p < 2 ^ fuel) && decide (fs.prod = p - 1) &&
      decide (powMod p fuel a (p - 1) = 1) &&
      fs.all fun q => decide (powMod p fuel a ((p - 1) / q) ≠ 1)) = true) : p.Prime := by
  simp only [Bool.and_eq_true, decide_eq_true_eq, List.all_eq_true] at h
  obtain ⟨⟨⟨⟨hp, hlt⟩, hprod⟩, h1⟩, h2⟩ := h
  have cast : ∀ e, e < 2 ^ fuel → ((a : ZMod p) ^ e = 1 ↔ powMod p fuel a e = 1) := by
    intro e he
    rw [powMod_eq p fuel a e he]
    have : ((a : ZMod p) ^ e = 1) ↔ (((a ^ e : ℕ) : ZMod p) = ((1 : ℕ) : ZMod p)) := by push_cast; rfl
    rw [this, ZMod.natCast_eq_natCast_iff']
    rw [Nat.mod_eq_of_lt hp]
  refine lucas_primality p (a : ZMod p) ((cast _ (by omega)).2 h1) ?_
  intro q hq hdvd
  rw [← hprod] at hdvd
  have hmem : q ∈ fs := by
    obtain ⟨r, hr, hqr⟩ := (Prime.dvd_prod_iff hq.prime).1 hdvd
    rwa [(Nat.prime_dvd_prime_iff_eq hq (hfs r hr)).1 hqr]
  have := h2 q hmem
  rw [Ne, cast]
  · exact this
  · exact lt_of_le_of_lt (Nat.div_le_self _ _) (by omega)

theorem prime_2851 : Nat.Prime 2851 := by
  refine prime_of_pratt 2851 2 12 [2, 3, 5, 5, 19] ?_ (by decide +kernel)
  intro q hq
  simp only [List.mem_cons, List.not_mem_nil, or_false] at hq
  rcases hq with rfl | rfl | rfl | rfl | rfl <;>
    first  | norm_num

theorem prime_2551 : Nat.Prime 2551 := by
  refine prime_of_pratt 2551 6 12 [2, 3, 5, 5, 17] ?_ (by decide +kernel)
  intro q hq
  simp only [List.mem_cons, List.not_mem_nil, or_false] at hq
  rcases hq with rfl | rfl | rfl | rfl | rfl <;>
    first  | norm_num

theorem prime_1224481 : Nat.Prime 1224481 := by
  refine prime_of_pratt 1224481 13 21 [2, 2, 2, 2, 2, 3, 5, 2551] ?_ (by decide +kernel)
  intro q hq
  simp only [List.mem_cons, List.not_mem_nil, or_false] at hq
  rcases hq with rfl | rfl | rfl | rfl | rfl | rfl | rfl | rfl <;>
    first | exact prime_2551 | norm_num

theorem prime_3797 : Nat.Prime 3797 := by
  refine prime_of_pratt 3797 2 12 [2, 2, 13, 73] ?_ (by decide +kernel)
  intro q hq
  simp only [List.mem_cons, List.not_mem_nil, or_false] at hq
  rcases hq with rfl | rfl | rfl | rfl <;>
    first  | norm_num

theorem prime_531581 : Nat.Prime 531581 := by
  refine prime_of_pratt 531581 2 20 [2, 2, 5, 7, 3797] ?_ (by decide +kernel)
  intro q hq
  simp only [List.mem_cons, List.not_mem_nil, or_false] at hq
  rcases hq with rfl | rfl | rfl | rfl | rfl <;>
    first | exact prime_3797 | norm_num

theorem prime_1257559732178653 : Nat.Prime 1257559732178653 := by
  refine prime_of_pratt 1257559732178653 2 51 [2, 2, 3, 7, 23, 531581, 1224481] ?_ (by decide +kernel)
  intro q hq
  simp only [List.mem_cons, List.not_mem_nil, or_false] at hq
  rcases hq with rfl | rfl | rfl | rfl | rfl | rfl | rfl <;>
    first | exact prime_531581 | exact prime_1224481 | norm_num

theorem prime_4434155615661930479 : Nat.Prime 4434155615661930479 := by
  refine prime_of_pratt 4434155615661930479 17 62 [2, 41, 43, 1257559732178653] ?_ (by decide +kernel)
  intro q hq
  simp only [List.mem_cons, List.not_mem_nil, or_false] at hq
  rcases hq with rfl | rfl | rfl | rfl <;>
    first | exact prime_1257559732178653 | norm_num

theorem prime_1361 : Nat.Prime 1361 := by
  refine prime_of_pratt 1361 3 11 [2, 2, 2, 2, 5, 17] ?_ (by decide +kernel)
  intro q hq
  simp only [List.mem_cons, List.not_mem_nil, or_false] at hq
  rcases hq with rfl | rfl | rfl | rfl | rfl | rfl <;>
    first  | norm_num

theorem prime_172054593956031949258510691 : Nat.Prime 172054593956031949258510691 := by
  refine prime_of_pratt 172054593956031949258510691 2 88 [2, 5, 1361, 2851, 4434155615661930479] ?_ (by decide +kernel)
  intro q hq
  simp only [List.mem_cons, List.not_mem_nil, or_false] at hq
  rcases hq with rfl | rfl | rfl | rfl | rfl <;>
    first | exact prime_1361 | exact prime_2851 | exact prime_4434155615661930479 | norm_num

theorem prime_2939 : Nat.Prime 2939 := by
  refine prime_of_pratt 2939 2 12 [2, 13, 113] ?_ (by decide +kernel)
  intro q hq
  simp only [List.mem_cons, List.not_mem_nil, or_false] at hq
  rcases hq with rfl | rfl | rfl <;>
    first  | norm_num

theorem prime_5879 : Nat.Prime 5879 := by
  refine prime_of_pratt 5879 11 13 [2, 2939] ?_ (by decide +kernel)
  intro q hq
  simp only [List.mem_cons, List.not_mem_nil, or_false] at hq
  rcases hq with rfl | rfl <;>
    first | exact prime_2939 | norm_num

theorem prime_292386187 : Nat.Prime 292386187 := by
  refine prime_of_pratt 292386187 2 29 [2, 3, 3, 3, 3, 307, 5879] ?_ (by decide +kernel)
  intro q hq
  simp only [List.mem_cons, List.not_mem_nil, or_false] at hq
  rcases hq with rfl | rfl | rfl | rfl | rfl | rfl | rfl <;>
    first | exact prime_5879 | norm_num

theorem prime_213441916511 : Nat.Prime 213441916511 := by
  refine prime_of_pratt 213441916511 13 38 [2, 5, 73, 292386187] ?_ (by decide +kernel)
  intro q hq
  simp only [List.mem_cons, List.not_mem_nil, or_false] at hq
  rcases hq with rfl | rfl | rfl | rfl <;>
    first | exact prime_292386187 | norm_num

theorem prime_19757330305831588566944191468367130476339 : Nat.Prime 19757330305831588566944191468367130476339 := by
  refine prime_of_pratt 19757330305831588566944191468367130476339 2 134 [2, 269, 213441916511, 172054593956031949258510691] ?_ (by decide +kernel)
  intro q hq
  simp only [List.mem_cons, List.not_mem_nil, or_false] at hq
  rcases hq with rfl | rfl | rfl | rfl <;>
    first | exact prime_213441916511 | exact prime_172054593956031949258510691 | norm_num

theorem prime_276602624281642239937218680557139826668747 : Nat.Prime 276602624281642239937218680557139826668747 := by
  refine prime_of_pratt 276602624281642239937218680557139826668747 2 138 [2, 7, 19757330305831588566944191468367130476339] ?_ (by decide +kernel)
  intro q hq
  simp only [List.mem_cons, List.not_mem_nil, or_false] at hq
  rcases hq with rfl | rfl | rfl <;>
    first | exact prime_19757330305831588566944191468367130476339 | norm_num

theorem prime_34123 : Nat.Prime 34123 := by
  refine prime_of_pratt 34123 2 16 [2, 3, 11, 11, 47] ?_ (by decide +kernel)
  intro q hq
  simp only [List.mem_cons, List.not_mem_nil, or_false] at hq
  rcases hq with rfl | rfl | rfl | rfl | rfl <;>
    first  | norm_num

theorem prime_409477 : Nat.Prime 409477 := by
  refine prime_of_pratt 409477 2 19 [2, 2, 3, 34123] ?_ (by decide +kernel)
  intro q hq
  simp only [List.mem_cons, List.not_mem_nil, or_false] at hq
  rcases hq with rfl | rfl | rfl | rfl <;>
    first | exact prime_34123 | norm_num

theorem prime_14741173 : Nat.Prime 14741173 := by
  refine prime_of_pratt 14741173 2 24 [2, 2, 3, 3, 409477] ?_ (by decide +kernel)
  intro q hq
  simp only [List.mem_cons, List.not_mem_nil, or_false] at hq
  rcases hq with rfl | rfl | rfl | rfl | rfl <;>
    first | exact prime_409477 | norm_num

theorem prime_58964693 : Nat.Prime 58964693 := by
  refine prime_of_pratt 58964693 2 26 [2, 2, 14741173] ?_ (by decide +kernel)
  intro q hq
  simp only [List.mem_cons, List.not_mem_nil, or_false] at hq
  rcases hq with rfl | rfl | rfl <;>
    first | exact prime_14741173 | norm_num

theorem prime_30703 : Nat.Prime 30703 := by
  refine prime_of_pratt 30703 3 15 [2, 3, 7, 17, 43] ?_ (by decide +kernel)
  intro q hq
  simp only [List.mem_cons, List.not_mem_nil, or_false] at hq
  rcases hq with rfl | rfl | rfl | rfl | rfl <;>
    first  | norm_num

theorem prime_41081 : Nat.Prime 41081 := by
  refine prime_of_pratt 41081 3 16 [2, 2, 2, 5, 13, 79] ?_ (by decide +kernel)
  intro q hq
  simp only [List.mem_cons, List.not_mem_nil, or_false] at hq
  rcases hq with rfl | rfl | rfl | rfl | rfl | rfl <;>
    first  | norm_num

theorem prime_82163 : Nat.Prime 82163 := by
  refine prime_of_pratt 82163 2 17 [2, 41081] ?_ (by decide +kernel)
  intro q hq
  simp only [List.mem_cons, List.not_mem_nil, or_false] at hq
  rcases hq with rfl | rfl <;>
    first | exact prime_41081 | norm_num

theorem prime_1723 : Nat.Prime 1723 := by
  refine prime_of_pratt 1723 3 11 [2, 3, 7, 41] ?_ (by decide +kernel)
  intro q hq
  simp only [List.mem_cons, List.not_mem_nil, or_false] at hq
  rcases hq with rfl | rfl | rfl | rfl <;>
    first  | norm_num

theorem prime_17231 : Nat.Prime 17231 := by
  refine prime_of_pratt 17231 13 15 [2, 5, 1723] ?_ (by decide +kernel)
  intro q hq
  simp only [List.mem_cons, List.not_mem_nil, or_false] at hq
  rcases hq with rfl | rfl | rfl <;>
    first | exact prime_1723 | norm_num

theorem prime_137849 : Nat.Prime 137849 := by
  refine prime_of_pratt 137849 3 18 [2, 2, 2, 17231] ?_ (by decide +kernel)
  intro q hq
  simp only [List.mem_cons, List.not_mem_nil, or_false] at hq
  rcases hq with rfl | rfl | rfl | rfl <;>
    first | exact prime_17231 | norm_num

theorem prime_22111 : Nat.Prime 22111 := by
  refine prime_of_pratt 22111 6 15 [2, 3, 5, 11, 67] ?_ (by decide +kernel)
  intro q hq
  simp only [List.mem_cons, List.not_mem_nil, or_false] at hq
  rcases hq with rfl | rfl | rfl | rfl | rfl <;>
    first  | norm_num

theorem prime_132667 : Nat.Prime 132667 := by
  refine prime_of_pratt 132667 5 18 [2, 3, 22111] ?_ (by decide +kernel)
  intro q hq
  simp only [List.mem_cons, List.not_mem_nil, or_false] at hq
  rcases hq with rfl | rfl | rfl <;>
    first | exact prime_22111 | norm_num

theorem prime_3044861653679985063343 : Nat.Prime 3044861653679985063343 := by
  refine prime_of_pratt 3044861653679985063343 5 72 [2, 3, 11, 30703, 82163, 132667, 137849] ?_ (by decide +kernel)
  intro q hq
  simp only [List.mem_cons, List.not_mem_nil, or_false] at hq
  rcases hq with rfl | rfl | rfl | rfl | rfl | rfl | rfl <;>
    first | exact prime_30703 | exact prime_82163 | exact prime_132667 | exact prime_137849 | norm_num

theorem prime_198211423230930754013084525763697 : Nat.Prime 198211423230930754013084525763697 := by
  refine prime_of_pratt 198211423230930754013084525763697 5 108 [2, 2, 2, 2, 3, 23, 58964693, 3044861653679985063343] ?_ (by decide +kernel)
  intro q hq
  simp only [List.mem_cons, List.not_mem_nil, or_false] at hq
  rcases hq with rfl | rfl | rfl | rfl | rfl | rfl | rfl | rfl <;>
    first | exact prime_58964693 | exact prime_3044861653679985063343 | norm_num

/-- Order of the ristretto255 group (libsodium, `crypto_core_ristretto255.h`). -/
def L : ℕ := 2 ^ 252 + 27742317777372353535851937790883648493

theorem L_prime : Nat.Prime L := by
  refine prime_of_pratt L 2 253 [2, 2, 3, 11, 198211423230930754013084525763697, 276602624281642239937218680557139826668747] ?_ (by decide +kernel)
  intro q hq
  simp only [List.mem_cons, List.not_mem_nil, or_false] at hq
  rcases hq with rfl | rfl | rfl | rfl | rfl | rfl <;>
    first | exact prime_198211423230930754013084525763697 | exact prime_276602624281642239937218680557139826668747 | norm_num

instance : Fact L.Prime := ⟨L_prime⟩

theorem L_gt : 2 ^ 252 < L := by unfold L; norm_num
theorem L_lt : L < 2 ^ 253 := by unfold L; norm_num
theorem L_pos : 0 < L := by unfold L; norm_num

attribute [irreducible] L

end Verif
