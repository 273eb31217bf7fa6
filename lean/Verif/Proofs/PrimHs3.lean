import Verif.Proofs.PrimHs2

/-!
# Received messages on memory
-/

namespace Verif.Prim

open Spec.Prim
open Noise (Err Role HS HRes)

variable {L : Layout} {W : Buf → Prop} {m0 m : Mem} {c : Buf → Option Bytes}

section
variable [Hashes] [NoiseCrypto] [Aead]

/-- The outcome of a received message. -/
def ReadIs (L : Layout) (W : Buf → Prop) (m0 : Mem) (r : HRes Bytes) (x : C (Option Err × Mem)) : Prop :=
  match r with
  | (.error e, s) => ∃ m' c', x = .ok (some e, m') ∧ Sim L W m0 m' c' ∧ Rel c' s
  | (.ok p, s) => ∃ m' c', x = .ok (none, m') ∧ Sim L W m0 m' c' ∧ Rel c' s ∧ c' .payload = some p

/-- What the functions that read a message may assume. -/
structure Receiving (L : Layout) (W : Buf → Prop) (m0 m : Mem) (c : Buf → Option Bytes) (s : HS) (a b : Bytes)
    (olen : UInt32) : Prop where
  S : Sim L W m0 m c
  K : L.Keys
  E : SameCipher
  R : Rel c s
  head : c .head = some a
  body : c .body = some b
  len : L.len .payload = olen.toNat
  wcipher : W .cipher
  wck : W .ck
  wh : W .h
  wrs : W .rs
  wre : W .re
  wpayload : W .payload

variable {s : HS} {a b : Bytes} {olen inlen : UInt32}

theorem mixOpen_run (A : Receiving L W m0 m c s a b olen) {sec pub : Buf} {x y : B32} {n : ℕ}
    (hx : c sec = some x.toList) (hy : c pub = some y.toList) (hb : b.length = olen.toNat + 16) (hov : b.length < 2 ^ 32) :
    ReadIs L W m0 (match Noise.mixDh x y s.ck with
      | none => (.error .dhError, s)
      | some (ck, k) =>
        match Noise.decryptAndHash k 0 s.h b with
        | none => (.error .decryptError, { s with ck, cipherKey := k })
        | some (p, h2) => (.ok p, { s with step := n, h := h2, ck, cipherKey := k }))
      (mixOpen (L.ptr .frame) L.ptrs (L.ptr sec) (L.ptr pub) olen (L.ptr .payload) (L.ptr .body) m) := by
  have hd := A.S.mixDh A.K hx hy A.R.ck A.wck A.wcipher
  cases hdh : NoiseCrypto.dh x y with
  | none =>
    rw [hdh] at hd
    obtain ⟨m', hr, S'⟩ := hd
    simp only [Noise.mixDh, hdh, ReadIs]
    refine ⟨m', c, ?_, S', A.R⟩
    rw [mixOpen, show L.ptrs.cipher = L.ptr .cipher from rfl, show L.ptrs.ck = L.ptr .ck from rfl, bind_ok hr]
    rfl
  | some k =>
    rw [hdh] at hd
    obtain ⟨m1, hr, S1⟩ := hd
    obtain ⟨-, v1, -, v2⟩ := Props.C84_values [] [] s.ck k.toList
    rw [← v1, ← v2] at S1
    have R1 : Rel (Function.update (Function.update c .ck (some (Noise.kdf s.ck k.toList).1.toList)) .cipher
        (some (Noise.key32 (Noise.kdf s.ck k.toList).2).toList))
        { s with ck := (Noise.kdf s.ck k.toList).1, cipherKey := Noise.key32 (Noise.kdf s.ck k.toList).2 } := by
      constructor <;> simp [A.R.h, A.R.spriv, A.R.spub, A.R.epriv, A.R.epub, A.R.rs, A.R.re]
    have h2 := S1.decrypt A.K (n := olen) (nc := 0) (msg := .payload) (inp := .body) R1.cipher R1.h
      (by simpa using A.body) hb hov A.len (by simp) (by simp) (by simp) A.wpayload A.wh
    rw [← A.E.2] at h2
    cases hdec : NoiseCrypto.aeadDec (Noise.key32 (Noise.kdf s.ck k.toList).2) 0 s.h.toList b with
    | none =>
      rw [hdec] at h2
      obtain ⟨m2, r2, S2⟩ := h2
      simp only [Noise.mixDh, hdh, Noise.decryptAndHash, hdec, ReadIs]
      refine ⟨m2, _, ?_, S2, ?_⟩
      · rw [mixOpen, show L.ptrs.cipher = L.ptr .cipher from rfl, show L.ptrs.ck = L.ptr .ck from rfl,
          show L.ptrs.h = L.ptr .h from rfl, bind_ok hr, if_pos rfl, bind_ok r2]
        rfl
      · constructor <;> simp [A.R.h, A.R.spriv, A.R.spub, A.R.epriv, A.R.epub, A.R.rs, A.R.re]
    | some p =>
      rw [hdec] at h2
      obtain ⟨m2, r2, S2⟩ := h2
      simp only [Noise.mixDh, hdh, Noise.decryptAndHash, hdec, ReadIs]
      refine ⟨m2, _, ?_, S2, ?_, by simp⟩
      · rw [mixOpen, show L.ptrs.cipher = L.ptr .cipher from rfl, show L.ptrs.ck = L.ptr .ck from rfl,
          show L.ptrs.h = L.ptr .h from rfl, bind_ok hr, if_pos rfl, bind_ok r2]
        rfl
      · constructor <;> simp [A.R.spriv, A.R.spub, A.R.epriv, A.R.epub, A.R.rs, A.R.re, mixHash_val]

/-- The messages that begin with an ephemeral key. -/
theorem recvE_run (A : Receiving L W m0 m c s a b olen) {sec : Buf} {x : B32} (hsec : sec ≠ .h ∧ sec ≠ .re)
    (hx : c sec = some x.toList) (ha : a.length = 32) (hb : b.length = olen.toNat + 16) (hov : b.length < 2 ^ 32)
    (hp : L.ptr .body = L.ptr .head + 32) :
    ReadIs L W m0 (match Noise.mixDh x (toB32 a) s.ck with
      | none => (.error .dhError, { s with h := Noise.mixHash s.h (toB32 a).toList, re := toB32 a })
      | some (ck, k) =>
        match Noise.decryptAndHash k 0 (Noise.mixHash s.h (toB32 a).toList) b with
        | none => (.error .decryptError,
            { s with h := Noise.mixHash s.h (toB32 a).toList, re := toB32 a, ck, cipherKey := k })
        | some (p, h2) => (.ok p, { s with step := s.step + 1, h := h2, re := toB32 a, ck, cipherKey := k }))
      ((do
        mixHash L.ptrs.h 32 (L.ptr .head)
        memcpy L.ptrs.re (L.ptr .head) 32
        mixOpen (L.ptr .frame) L.ptrs (L.ptr sec) L.ptrs.re olen (L.ptr .payload) (L.ptr .head + 32) : P (Option Err)) m) := by
  have hal : (toB32 a).toList = a := toB32_list ha
  obtain ⟨m1, r1, S1⟩ := A.S.mixHash A.K (n := 32) A.R.h A.head (by rw [ha]; rfl) A.wh
  obtain ⟨m2, r2, S2⟩ := S1.copy (d := .re) (b := .head) (n := 32) (x := a) (by simpa using A.head) ha.symm
    A.K.re A.wre (by simp) (by simp)
  rw [mixHash_val] at S1 S2
  rw [show L.ptrs.h = L.ptr .h from rfl, show L.ptrs.re = L.ptr .re from rfl, bind_ok r1, bind_ok r2, ← hp]
  have R2 : Rel (Function.update (Function.update c .h (some (Noise.mixHash s.h a).toList)) .re (some a))
      { s with h := Noise.mixHash s.h (toB32 a).toList, re := toB32 a } := by
    constructor <;>
      simp [A.R.cipher, A.R.ck, A.R.spriv, A.R.spub, A.R.epriv, A.R.epub, A.R.rs, hal]
  exact mixOpen_run (n := s.step + 1) (x := x) (y := toB32 a)
    ⟨S2, A.K, A.E, R2, by simpa using A.head, by simpa using A.body, A.len, A.wcipher, A.wck, A.wh, A.wrs, A.wre, A.wpayload⟩
    (by rw [Function.update_of_ne hsec.2, Function.update_of_ne hsec.1, hx]) R2.re hb hov

theorem initRead1_run (A : Receiving L W m0 m c s a b olen) (hin : inlen.toNat = (a ++ b).length)
    (hL : inlen.toNat = 48 + olen.toNat → a.length = 32 ∧ L.ptr .body = L.ptr .head + 32) :
    ReadIs L W m0 (Noise.initRead1 s (a ++ b) olen.toNat)
      (initRead1 (L.ptr .frame) L.ptrs olen (L.ptr .payload) inlen (L.ptr .head) m) := by
  have hi := size_iff (a := olen) (b := inlen) (kk := 48) (k := 48) rfl rfl (by norm_num)
  unfold Noise.initRead1 initRead1
  rw [← hin]
  by_cases hsz : olen.toNat ≤ 4294967215 ∧ inlen.toNat = 48 + olen.toNat
  · rw [if_neg (not_not.2 hsz), if_neg (not_not.2 (hi.2 hsz))]
    obtain ⟨h1, h2⟩ := hL hsz.2
    have hb : b.length = olen.toNat + 16 := by rw [List.length_append] at hin; omega
    rw [List.take_left' h1, List.drop_left' h1]
    exact recvE_run A (sec := .epriv) (x := s.epriv) (by simp) A.R.epriv h1 hb (by omega) h2
  · rw [if_pos hsz, if_pos (mt hi.1 hsz)]
    exact ⟨m, c, rfl, A.S, A.R⟩

theorem respRead0_run (A : Receiving L W m0 m c s a b olen) (hin : inlen.toNat = (a ++ b).length)
    (hL : inlen.toNat = 48 + olen.toNat → a.length = 32 ∧ L.ptr .body = L.ptr .head + 32) :
    ReadIs L W m0 (Noise.respRead0 s (a ++ b) olen.toNat)
      (respRead0 (L.ptr .frame) L.ptrs olen (L.ptr .payload) inlen (L.ptr .head) m) := by
  have hi := size_iff (a := olen) (b := inlen) (kk := 48) (k := 48) rfl rfl (by norm_num)
  unfold Noise.respRead0 respRead0
  rw [← hin]
  by_cases hsz : olen.toNat ≤ 4294967215 ∧ inlen.toNat = 48 + olen.toNat
  · rw [if_neg (not_not.2 hsz), if_neg (not_not.2 (hi.2 hsz))]
    obtain ⟨h1, h2⟩ := hL hsz.2
    have hb : b.length = olen.toNat + 16 := by rw [List.length_append] at hin; omega
    rw [List.take_left' h1, List.drop_left' h1]
    exact recvE_run A (sec := .spriv) (x := s.spriv) (by simp) A.R.spriv h1 hb (by omega) h2
  · rw [if_pos hsz, if_pos (mt hi.1 hsz)]
    exact ⟨m, c, rfl, A.S, A.R⟩

theorem findPeer_run (S : Sim L W m0 m c) {rs : B32} (hrs : c .rs = some rs.toList) :
    ∀ ps : List (ℕ × Noise.Peer), (∀ q ∈ ps, c (.peer q.1) = some q.2.s.toList) →
      findPeer (L.ptr .rs) (ps.map fun q => (L.ptr (.peer q.1), q.2.id)) m =
        .ok (((ps.map (·.2)).find? fun p => p.s == rs).map (·.id), m)
  | [], _ => rfl
  | q :: ps, h => by
    have hq := S.held _ _ (h q (by simp))
    have hr := S.held _ _ hrs
    have he := lbytesEq_run (len := 32) hq.2.2 hr.2.2 (by simp) (by simp)
    rw [List.map_cons, findPeer, bind_ok he, List.map_cons, List.find?_cons]
    by_cases e : q.2.s = rs
    · rw [e]
      simp
      rfl
    · have e' : ¬ q.2.s.toList = rs.toList := fun h => e (Vector.toList_inj.1 h)
      have := findPeer_run S hrs ps fun q hq => h q (by simp [hq])
      have e2 : (q.2.s == rs) = false := by simpa using e
      rw [decide_eq_false e', if_neg Bool.false_ne_true, e2]
      exact this

/-- The outcome of message 3 at the responder. -/
def Read2Is (L : Layout) (W : Buf → Prop) (m0 : Mem) (r : HRes (Bytes × UInt32)) (x : C ((Option Err × UInt32) × Mem)) :
    Prop :=
  match r with
  | (.error e, s) => ∃ i m' c', x = .ok ((some e, i), m') ∧ Sim L W m0 m' c' ∧ Rel c' s
  | (.ok (p, i), s) => ∃ m' c', x = .ok ((none, i), m') ∧ Sim L W m0 m' c' ∧ Rel c' s ∧ c' .payload = some p

theorem respRead2_run (A : Receiving L W m0 m c s a b olen) (hin : inlen.toNat = (a ++ b).length)
    (hL : inlen.toNat = 64 + olen.toNat → a.length = 48 ∧ L.ptr .body = L.ptr .head + 48) (hrs : s.rs = zero32)
    {ps : List (ℕ × Noise.Peer)} (hps : ∀ q ∈ ps, c (.peer q.1) = some q.2.s.toList) {pid : UInt32} :
    Read2Is L W m0 (Noise.respRead2 (ps.map (·.2)) s (a ++ b) olen.toNat)
      (respRead2 (L.ptr .frame) L.ptrs (ps.map fun q => (L.ptr (.peer q.1), q.2.id)) pid olen (L.ptr .payload) inlen
        (L.ptr .head) m) := by
  have hi := size_iff (a := olen) (b := inlen) (kk := 64) (k := 64) rfl rfl (by norm_num)
  unfold Noise.respRead2 respRead2
  rw [← hin]
  by_cases hsz : olen.toNat ≤ 4294967215 ∧ inlen.toNat = 64 + olen.toNat
  · rw [if_neg (not_not.2 hsz), if_neg (not_not.2 (hi.2 hsz))]
    obtain ⟨h1, h2⟩ := hL hsz.2
    have hb : b.length = olen.toNat + 16 := by rw [List.length_append] at hin; omega
    rw [List.take_left' h1, List.drop_left' h1]
    have hd := A.S.decrypt A.K (n := 32) (nc := 1) (msg := .rs) (inp := .head) A.R.cipher A.R.h A.head (by rw [h1]; rfl)
      (by omega) A.K.rs (by simp) (by simp) (by simp) A.wrs A.wh
    rw [← A.E.2] at hd
    rw [show L.ptrs.rs = L.ptr .rs from rfl, show L.ptrs.h = L.ptr .h from rfl,
      show L.ptrs.cipher = L.ptr .cipher from rfl]
    cases hdec : NoiseCrypto.aeadDec s.cipherKey 1 s.h.toList a with
    | none =>
      rw [hdec] at hd
      obtain ⟨m1, r1, S1⟩ := hd
      simp only [Noise.decryptAndHash, hdec, Read2Is]
      refine ⟨pid, m1, _, by rw [bind_ok r1]; rfl, S1, ?_⟩
      have hz : (List.replicate (32 : UInt32).toNat 0 : Bytes) = zero32.toList := by decide
      constructor <;> simp [A.R.cipher, A.R.ck, A.R.h, A.R.spriv, A.R.spub, A.R.epriv, A.R.epub, A.R.re, hrs, ← hz]
    | some rsb =>
      rw [hdec] at hd
      obtain ⟨m1, r1, S1⟩ := hd
      have hl : rsb.length = 32 := by
        have := NoiseCrypto.dec_length _ _ _ _ _ hdec
        omega
      have hrl : (toB32 rsb).toList = rsb := toB32_list hl
      have R1 : Rel (Function.update (Function.update c .rs (some rsb)) .h (some (H (s.h.toList ++ a))))
          { s with rs := toB32 rsb, h := Noise.mixHash s.h a } := by
        constructor <;>
          simp [A.R.cipher, A.R.ck, A.R.spriv, A.R.spub, A.R.epriv, A.R.epub, A.R.re, hrl, mixHash_val]
      have hf := findPeer_run S1 (rs := toB32 rsb) R1.rs ps fun q hq => by simpa using hps q hq
      have hde : Noise.decryptAndHash s.cipherKey 1 s.h a = some (rsb, Noise.mixHash s.h a) := by
        simp only [Noise.decryptAndHash, hdec]
      simp only [hde]
      rw [bind_ok r1, if_pos rfl, respRead2Peer, show L.ptrs.rs = L.ptr .rs from rfl, bind_ok hf]
      cases hfind : (ps.map (·.2)).find? fun p => p.s == toB32 rsb with
      | none =>
        simp only [Option.map_none, Read2Is]
        exact ⟨0, m1, _, rfl, S1, R1⟩
      | some peer =>
        simp only [Option.map_some]
        have ho := mixOpen_run (n := s.step + 1) (sec := .epriv) (pub := .rs) (x := s.epriv) (y := toB32 rsb)
          (s := { s with rs := toB32 rsb, h := Noise.mixHash s.h a }) (a := a) (b := b) (olen := olen)
          ⟨S1, A.K, A.E, R1, by simpa using A.head, by simpa using A.body, A.len, A.wcipher, A.wck, A.wh, A.wrs, A.wre,
            A.wpayload⟩ R1.epriv R1.rs hb (by omega)
        rw [← h2, show L.ptrs.epriv = L.ptr .epriv from rfl]
        revert ho
        cases hm : Noise.mixDh s.epriv (toB32 rsb) s.ck with
        | none =>
          simp only [ReadIs, Read2Is]
          rintro ⟨m', c', r', S', R'⟩
          exact ⟨peer.id, m', c', by rw [bind_ok r']; rfl, S', R'⟩
        | some v =>
          obtain ⟨ck, k⟩ := v
          simp only
          cases hd2 : Noise.decryptAndHash k 0 (Noise.mixHash s.h a) b with
          | none =>
            simp only [ReadIs, Read2Is]
            rintro ⟨m', c', r', S', R'⟩
            exact ⟨peer.id, m', c', by rw [bind_ok r']; rfl, S', R'⟩
          | some v =>
            obtain ⟨p, hh⟩ := v
            simp only [ReadIs, Read2Is]
            rintro ⟨m', c', r', S', R', hp'⟩
            exact ⟨m', c', by rw [bind_ok r']; rfl, S', R', hp'⟩
  · rw [if_pos hsz, if_pos (mt hi.1 hsz)]
    exact ⟨pid, m, c, rfl, A.S, A.R⟩

end

end Verif.Prim
