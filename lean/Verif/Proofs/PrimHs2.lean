import Verif.Proofs.PrimHs

/-!
# Messages on memory: the functions
-/

namespace Verif.Prim

open Spec.Prim
open Noise (Err Role HS HRes)

variable {L : Layout} {W : Buf → Prop} {m0 m : Mem} {c : Buf → Option Bytes}

/-- The check of the lengths in 32 bits is the check in numbers. -/
theorem size_iff {a b kk : UInt32} {k n : ℕ} (ha : a.toNat = n) (hkk : kk.toNat = k) (hk : k ≤ 80) :
    (a ≤ 4294967215 ∧ b = kk + a) ↔ (n ≤ 4294967215 ∧ b.toNat = k + n) := by
  have h1 : a ≤ 4294967215 ↔ n ≤ 4294967215 := by rw [UInt32.le_iff_toNat_le, ha]; rfl
  rw [h1]
  refine and_congr_right fun hn => ?_
  rw [← UInt32.toNat_inj, UInt32.toNat_add, hkk, ha, Nat.mod_eq_of_lt (by omega)]

theorem size_iff' {a b : UInt32} {n : ℕ} (ha : a.toNat = n) :
    (a ≤ 4294967279 ∧ b = a + 16) ↔ (n ≤ 4294967279 ∧ b.toNat = n + 16) := by
  have h1 : a ≤ 4294967279 ↔ n ≤ 4294967279 := by rw [UInt32.le_iff_toNat_le, ha]; rfl
  rw [h1]
  refine and_congr_right fun hn => ?_
  rw [← UInt32.toNat_inj, UInt32.toNat_add, ha, Nat.mod_eq_of_lt (by simp; omega)]
  rfl

section
variable [Hashes] [NoiseCrypto] [Aead]

/-- What the functions that write a message may assume. -/
structure Sending (L : Layout) (W : Buf → Prop) (m0 m : Mem) (c : Buf → Option Bytes) (s : HS) (pl : Bytes) (plen : UInt32) :
    Prop where
  S : Sim L W m0 m c
  K : L.Keys
  E : SameCipher
  R : Rel c s
  payload : c .payload = some pl
  len : plen.toNat = pl.length
  wcipher : W .cipher
  wck : W .ck
  wh : W .h
  whead : W .head
  wbody : W .body

variable {s : HS} {pl : Bytes} {plen outlen : UInt32}

/-- The messages that begin with the ephemeral key. -/
theorem sendE_run (A : Sending L W m0 m c s pl plen) (hsz : pl.length ≤ 4294967215) {sec pub : Buf} {x y : B32}
    (hsec : sec ≠ .h ∧ sec ≠ .head) (hpub : pub ≠ .h ∧ pub ≠ .head) (hx : c sec = some x.toList) (hy : c pub = some y.toList)
    (hh : L.len .head = 32) (hb : L.ptr .body = L.ptr .head + 32) (hbl : L.len .body = pl.length + 16) :
    WroteIs L W m0 (match Noise.mixDh x y s.ck with
      | none => (.error .dhError, { s with h := Noise.mixHash s.h s.epub.toList })
      | some (ck, k) =>
        (.ok (s.epub.toList ++ NoiseCrypto.aeadEnc k 0 (Noise.mixHash s.h s.epub.toList).toList pl),
          { s with step := s.step + 1, ck, cipherKey := k,
                   h := Noise.mixHash (Noise.mixHash s.h s.epub.toList)
                    (NoiseCrypto.aeadEnc k 0 (Noise.mixHash s.h s.epub.toList).toList pl) }))
      ((do
        mixHash L.ptrs.h 32 L.ptrs.epub
        memcpy (L.ptr .head) L.ptrs.epub 32
        mixSeal (L.ptr .frame) L.ptrs (L.ptr sec) (L.ptr pub) plen (L.ptr .payload) (L.ptr .head + 32) : P (Option Err)) m) := by
  obtain ⟨m1, r1, S1⟩ := A.S.mixHash A.K (n := 32) A.R.h A.R.epub (by simp) A.wh
  obtain ⟨m2, r2, S2⟩ := S1.copy (d := .head) (b := .epub) (n := 32) (x := s.epub.toList) (by simpa using A.R.epub) (by simp)
    hh A.whead (by simp) (by simp)
  rw [mixHash_val] at S1 S2
  rw [show L.ptrs.h = L.ptr .h from rfl, show L.ptrs.epub = L.ptr .epub from rfl, bind_ok r1, bind_ok r2, ← hb]
  have R2 : Rel (Function.update (Function.update c .h (some (Noise.mixHash s.h s.epub.toList).toList)) .head
      (some s.epub.toList)) { s with h := Noise.mixHash s.h s.epub.toList } := by
    constructor <;>
      simp [A.R.cipher, A.R.ck, A.R.spriv, A.R.spub, A.R.epriv, A.R.epub, A.R.rs, A.R.re]
  exact mixSeal_run S2 A.K A.E R2 (x := x) (y := y) (n := s.step + 1)
    (by rw [Function.update_of_ne hsec.2, Function.update_of_ne hsec.1, hx])
    (by rw [Function.update_of_ne hpub.2, Function.update_of_ne hpub.1, hy]) (a := s.epub.toList) (by simp) (pl := pl)
    (by simpa using A.payload) A.len (by omega) hbl A.wck A.wcipher A.wbody A.wh

theorem initWrite0_run (A : Sending L W m0 m c s pl plen)
    (hL : outlen.toNat = 48 + pl.length →
      L.len .head = 32 ∧ L.ptr .body = L.ptr .head + 32 ∧ L.len .body = pl.length + 16) :
    WroteIs L W m0 (Noise.initWrite0 s pl outlen.toNat)
      (initWrite0 (L.ptr .frame) L.ptrs plen (L.ptr .payload) outlen (L.ptr .head) m) := by
  have hi := size_iff (b := outlen) (kk := 48) (k := 48) A.len rfl (by norm_num)
  unfold Noise.initWrite0 initWrite0
  by_cases hsz : pl.length ≤ 4294967215 ∧ outlen.toNat = 48 + pl.length
  · rw [if_neg (not_not.2 hsz), if_neg (not_not.2 (hi.2 hsz))]
    obtain ⟨h1, h2, h3⟩ := hL hsz.2
    exact sendE_run A hsz.1 (sec := .epriv) (pub := .rs) (by simp) (by simp) A.R.epriv A.R.rs h1 h2 h3
  · rw [if_pos hsz, if_pos (mt hi.1 hsz)]
    exact ⟨m, c, rfl, A.S, A.R⟩

theorem respWrite1_run (A : Sending L W m0 m c s pl plen)
    (hL : outlen.toNat = 48 + pl.length →
      L.len .head = 32 ∧ L.ptr .body = L.ptr .head + 32 ∧ L.len .body = pl.length + 16) :
    WroteIs L W m0 (Noise.respWrite1 s pl outlen.toNat)
      (respWrite1 (L.ptr .frame) L.ptrs plen (L.ptr .payload) outlen (L.ptr .head) m) := by
  have hi := size_iff (b := outlen) (kk := 48) (k := 48) A.len rfl (by norm_num)
  unfold Noise.respWrite1 respWrite1
  by_cases hsz : pl.length ≤ 4294967215 ∧ outlen.toNat = 48 + pl.length
  · rw [if_neg (not_not.2 hsz), if_neg (not_not.2 (hi.2 hsz))]
    obtain ⟨h1, h2, h3⟩ := hL hsz.2
    exact sendE_run A hsz.1 (sec := .epriv) (pub := .re) (by simp) (by simp) A.R.epriv A.R.re h1 h2 h3
  · rw [if_pos hsz, if_pos (mt hi.1 hsz)]
    exact ⟨m, c, rfl, A.S, A.R⟩

theorem initWrite2_run (A : Sending L W m0 m c s pl plen)
    (hL : outlen.toNat = 64 + pl.length →
      L.len .head = 48 ∧ L.ptr .body = L.ptr .head + 48 ∧ L.len .body = pl.length + 16) :
    WroteIs L W m0 (Noise.initWrite2 s pl outlen.toNat)
      (initWrite2 (L.ptr .frame) L.ptrs plen (L.ptr .payload) outlen (L.ptr .head) m) := by
  have hi := size_iff (b := outlen) (kk := 64) (k := 64) A.len rfl (by norm_num)
  unfold Noise.initWrite2 initWrite2
  by_cases hsz : pl.length ≤ 4294967215 ∧ outlen.toNat = 64 + pl.length
  · rw [if_neg (not_not.2 hsz), if_neg (not_not.2 (hi.2 hsz))]
    obtain ⟨h1, h2, h3⟩ := hL hsz.2
    obtain ⟨m1, r1, S1⟩ := A.S.encrypt A.K (n := 32) (nc := 1) (msg := .spub) (out := .head) A.R.cipher A.R.h A.R.spub
      (by simp) (by simp) (by rw [h1]; simp) (by simp) (by simp) A.whead A.wh
    rw [← A.E.1, mixHash_val] at S1
    rw [show L.ptrs.h = L.ptr .h from rfl, show L.ptrs.spub = L.ptr .spub from rfl,
      show L.ptrs.cipher = L.ptr .cipher from rfl, bind_ok r1, ← h2]
    refine mixSeal_run S1 A.K A.E (s := { s with h := Noise.mixHash s.h (NoiseCrypto.aeadEnc s.cipherKey 1 s.h.toList s.spub.toList) })
      ?_ (sec := .spriv) (pub := .re) (x := s.spriv) (y := s.re) (n := s.step + 1) (by simpa using A.R.spriv)
      (by simpa using A.R.re) (by simp) (pl := pl) (by simpa using A.payload) A.len (by omega) h3 A.wck A.wcipher A.wbody A.wh
    constructor <;> simp [A.R.cipher, A.R.ck, A.R.spriv, A.R.spub, A.R.epriv, A.R.epub, A.R.rs, A.R.re]
  · rw [if_pos hsz, if_pos (mt hi.1 hsz)]
    exact ⟨m, c, rfl, A.S, A.R⟩

/-! ### The end of a message -/

/-- The outcome of the end of a message. -/
theorem finish_run (S : Sim L W m0 m c) (K : L.Keys) {s' : HS} (R : Rel c s') {role : Role} {step : UInt32}
    (h3 : step.toNat < 3) (hstep : s'.step = step.toNat + 1)
    (hk : step = 2 → L.len .k1 = 32 ∧ L.len .k2 = 32 ∧ W .k1 ∧ W .k2) :
    ∃ n m' c', finish (L.ptr .frame) role step L.ptrs (L.ptr .k1) (L.ptr .k2) none m = .ok (.ok n, m') ∧
      Sim L W m0 m' c' ∧ (∀ b, b ≠ .k1 → b ≠ .k2 → c' b = c b) ∧
      StateIs L m' n (if step.toNat = 2 then .transport (Noise.split role s') else .handshake s') := by
  by_cases h2 : step = 2
  · obtain ⟨l1, l2, w1, w2⟩ := hk h2
    obtain ⟨m1, r1, S1⟩ := S.split K R.ck l1 l2 w1 w2
    have hkk : ∀ i : B64, (Noise.key32 i).toList = i.toList.take 32 := fun i => by
      rw [Noise.key32, toB32_list (by simp)]
    obtain ⟨-, v1, v2, -⟩ := Props.C84_values [] [] s'.ck []
    have hh : Holds m1 (L.ptr .h) s'.h.toList := (S1.held .h _ (by simpa using R.h)).2.2
    have hk1 : Holds m1 (L.ptr .k1) ((HKDF s'.ck.toList [] 1).take 32) := (S1.held .k1 _ (by simp)).2.2
    have hk2 : Holds m1 (L.ptr .k2) ((HKDF s'.ck.toList [] 2).take 32) := (S1.held .k2 _ (by simp)).2.2
    rw [← v1, ← hkk] at hk1
    rw [← v2, ← hkk] at hk2
    have hr : ∀ role, finish (L.ptr .frame) role step L.ptrs (L.ptr .k1) (L.ptr .k2) none m = .ok (.ok (match role with
        | .initiator => .transport (L.ptr .k1) (L.ptr .k2)
        | .responder => .transport (L.ptr .k2) (L.ptr .k1)), m1) := fun role => by
      unfold finish
      simp only []
      rw [if_pos h2, show L.ptrs.ck = L.ptr .ck from rfl, bind_ok r1]
      rfl
    refine ⟨_, m1, _, hr role, S1, fun b b1 b2 => by rw [Function.update_of_ne b2, Function.update_of_ne b1], ?_⟩
    rw [if_pos (by rw [h2]; rfl)]
    cases role with
    | initiator => exact ⟨_, _, rfl, hh, hk1, hk2, rfl, rfl⟩
    | responder => exact ⟨_, _, rfl, hh, hk2, hk1, rfl, rfl⟩
  · refine ⟨.handshake (step + 1), m, c, by unfold finish; simp only []; rw [if_neg h2]; rfl, S, fun _ _ _ => rfl, ?_⟩
    rw [if_neg (fun h => h2 (by rw [← UInt32.toNat_inj, h]; rfl))]
    refine ⟨?_, S.shows R⟩
    rw [hstep]
    simp

end

end Verif.Prim
