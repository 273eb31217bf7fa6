import Verif.Spec.PrimHs
import Verif.Props.Prim

/-!
# Messages on memory: the buffers one by one
-/

namespace Verif.Prim

open Spec.Prim
open Noise (Err Role HS HRes)

/-- What is known about the buffers: the contents of some, and that all belong to objects. -/
structure Sim (L : Layout) (W : Buf → Prop) (m0 m : Mem) (c : Buf → Option Bytes) : Prop where
  held : ∀ b v, c b = some v → b ≠ .frame ∧ v.length = L.len b ∧ Holds m (L.ptr b) v
  space : ∀ b, b ≠ .frame → Space m (L.ptr b) (L.len b)
  conf : Confined L W m0 m

variable {L : Layout} {W : Buf → Prop} {m0 m : Mem} {c : Buf → Option Bytes}

theorem apart_shrink {a n b k n' k' : ℕ} (h : Apart a n b k) (hn : n' ≤ n) (hk : k' ≤ k) : Apart a n' b k' := by
  unfold Apart at *; omega

theorem Sim.put (S : Sim L W m0 m c) {b : Buf} {v : Bytes} (w : W b) (hb : b ≠ .frame) (hv : v.length = L.len b) :
    Sim L W m0 (wrote (L.ptr b) v m) (Function.update c b (some v)) := by
  refine ⟨fun b' v' h => ?_, fun b' h => (S.space b' h).wrote, fun x hx => ?_⟩
  · by_cases e : b' = b
    · subst e
      rw [Function.update_self, Option.some.injEq] at h
      subst h
      exact ⟨hb, hv, holds_wrote⟩
    · rw [Function.update_of_ne e] at h
      obtain ⟨h1, h2, h3⟩ := S.held b' v' h
      exact ⟨h1, h2, h3.wrote (by rw [h2, hv]; exact L.apart _ _ (Ne.symm e))⟩
  · by_cases e : L.ptr b ≤ x ∧ x < L.ptr b + v.length
    · exact Or.inl ⟨b, w, by rw [Layout.In, ← hv]; exact e⟩
    · rw [wrote_out (by omega)] at hx ⊢
      exact S.conf x hx

theorem Sim.wipe (S : Sim L W m0 m c) {k : ℕ} (hk : k ≤ L.len .frame) : Sim L W m0 (cleared (L.ptr .frame) k m) c := by
  refine ⟨fun b v h => ?_, fun b h => (S.space b h).wrote, fun x hx => ?_⟩
  · obtain ⟨h1, h2, h3⟩ := S.held b v h
    refine ⟨h1, h2, h3.wrote ?_⟩
    rw [h2, List.length_replicate]
    exact apart_shrink (L.apart _ _ (Ne.symm h1)) hk le_rfl
  · by_cases e : L.ptr .frame ≤ x ∧ x < L.ptr .frame + k
    · right
      refine ⟨⟨e.1, by omega⟩, ?_⟩
      rw [cleared, wrote_in e.1 (by rw [List.length_replicate]; exact e.2), List.getD_replicate _ (by omega)]
    · rw [cleared, wrote_out (by rw [List.length_replicate]; omega)] at hx ⊢
      exact S.conf x hx

theorem Sim.apartFrame (S : Sim L W m0 m c) {b : Buf} {v : Bytes} (h : c b = some v) {k n : ℕ} (hk : k ≤ L.len .frame)
    (hn : n ≤ v.length) : Apart (L.ptr .frame) k (L.ptr b) n := by
  obtain ⟨h1, h2, -⟩ := S.held b v h
  exact apart_shrink (L.apart _ _ (Ne.symm h1)) hk (h2 ▸ hn)

theorem frame_apart {b : Buf} (hb : b ≠ .frame) {k n : ℕ} (hk : k ≤ L.len .frame) (hn : n ≤ L.len b) :
    Apart (L.ptr .frame) k (L.ptr b) n := apart_shrink (L.apart _ _ (Ne.symm hb)) hk hn

section
variable [Hashes]

theorem Sim.mixHash (S : Sim L W m0 m c) (K : L.Keys) {b : Buf} {hv x : Bytes} {n : UInt32} (hh : c .h = some hv)
    (hx : c b = some x) (hn : n.toNat = x.length) (w : W .h) :
    ∃ m', Prim.mixHash (L.ptr .h) n (L.ptr b) m = .ok ((), m') ∧ Sim L W m0 m' (Function.update c .h (some (H (hv ++ x)))) :=
  ⟨_, mixHash_run (S.held _ _ hh).2.2 ((S.held _ _ hh).2.1.trans K.h) (S.held _ _ hx).2.2 hn,
    S.put w (by simp) (by rw [H_length, K.h])⟩

theorem Sim.copy (S : Sim L W m0 m c) {d b : Buf} {x : Bytes} {n : ℕ} (hx : c b = some x) (hn : n = x.length)
    (hd : L.len d = n) (w : W d) (hdf : d ≠ .frame) (hne : d ≠ b) :
    ∃ m', memcpy (L.ptr d) (L.ptr b) n m = .ok ((), m') ∧ Sim L W m0 m' (Function.update c d (some x)) := by
  obtain ⟨h1, h2, h3⟩ := S.held _ _ hx
  refine ⟨_, memcpy_run h3 hn (hd ▸ S.space d hdf) ?_, S.put w hdf (by omega)⟩
  have := L.apart d b hne
  rwa [hd, ← h2, ← hn] at this

theorem Sim.split (S : Sim L W m0 m c) (K : L.Keys) {cv : Bytes} (hc : c .ck = some cv) (h1 : L.len .k1 = 32)
    (h2 : L.len .k2 = 32) (w1 : W .k1) (w2 : W .k2) :
    ∃ m', splitKeys (L.ptr .frame) (L.ptr .ck) (L.ptr .k1) (L.ptr .k2) m = .ok ((), m') ∧
      Sim L W m0 m' (Function.update (Function.update c .k1 (some ((HKDF cv [] 1).take 32))) .k2
        (some ((HKDF cv [] 2).take 32))) := by
  have hcl := (S.held _ _ hc).2.1.trans K.ck
  refine ⟨_, splitKeys_run (S.held _ _ hc).2.2 hcl (h1 ▸ S.space _ (by simp)) (h2 ▸ S.space _ (by simp)) K.frame_ne
    (frame_apart (by simp) K.frame.ge K.ck.ge) (frame_apart (by simp) K.frame.ge h1.ge)
    (frame_apart (by simp) K.frame.ge h2.ge), ((S.put w1 (by simp) ?_).put w2 (by simp) ?_).wipe K.frame.ge⟩
  · rw [List.length_take, HKDF_length (by simp), h1]; rfl
  · rw [List.length_take, HKDF_length (by simp), h2]; rfl

section
variable [NoiseCrypto]

theorem Sim.mixDh (S : Sim L W m0 m c) (K : L.Keys) {sec pub : Buf} {x y : B32} {cv : Bytes}
    (hx : c sec = some x.toList) (hy : c pub = some y.toList) (hc : c .ck = some cv) (w1 : W .ck) (w2 : W .cipher) :
    match NoiseCrypto.dh x y with
    | some s => ∃ m', Prim.mixDh (L.ptr .frame) (L.ptr sec) (L.ptr pub) (L.ptr .cipher) (L.ptr .ck) m = .ok (true, m') ∧
        Sim L W m0 m' (Function.update (Function.update c .ck (some (HKDF cv s.toList 1))) .cipher
          (some ((HKDF cv s.toList 2).take 32)))
    | none => ∃ m', Prim.mixDh (L.ptr .frame) (L.ptr sec) (L.ptr pub) (L.ptr .cipher) (L.ptr .ck) m = .ok (false, m') ∧
        Sim L W m0 m' c := by
  have hcl := (S.held _ _ hc).2.1.trans K.ck
  have hf : 353 ≤ L.len .frame := by rw [K.frame]; norm_num
  have h := mixDh_run (sp := L.ptr .frame) (k := L.ptr .cipher) (S.held _ _ hx).2.2 (by simp) (S.held _ _ hy).2.2 (by simp) (S.held _ _ hc).2.2
    hcl (K.cipher ▸ S.space _ (by simp)) K.ck_ne (S.apartFrame hx hf (by simp)) (S.apartFrame hy hf (by simp))
    (frame_apart (by simp) hf K.ck.ge) (frame_apart (by simp) hf K.cipher.ge)
  rw [toB32_toList, toB32_toList] at h
  cases hd : NoiseCrypto.dh x y with
  | none =>
    rw [hd] at h
    exact ⟨_, h, S.wipe (by omega)⟩
  | some s =>
    rw [hd] at h
    refine ⟨_, h, ((S.put w1 (by simp) ?_).put w2 (by simp) ?_).wipe hf⟩
    · rw [HKDF_length (by simp), K.ck]
    · rw [List.length_take, HKDF_length (by simp), K.cipher]; rfl

end

section
variable [Aead]

theorem Sim.encrypt (S : Sim L W m0 m c) (K : L.Keys) {msg out : Buf} {kb hv pb : Bytes} {n : UInt32} {nc : UInt64}
    (hk : c .cipher = some kb) (hh : c .h = some hv) (hp : c msg = some pb) (hn : n.toNat = pb.length)
    (hov : pb.length + 16 < 2 ^ 32) (ho : L.len out = pb.length + 16) (hof : out ≠ .frame) (hoh : out ≠ .h)
    (w1 : W out) (w2 : W .h) :
    ∃ m', encryptAndHash (L.ptr .frame) n (L.ptr msg) (L.ptr out) (L.ptr .cipher) (L.ptr .h) nc m = .ok ((), m') ∧
      Sim L W m0 m' (Function.update (Function.update c out (some (Aead.enc kb (nonce nc) hv pb))) .h
        (some (H (hv ++ Aead.enc kb (nonce nc) hv pb)))) := by
  have hf : 12 ≤ L.len .frame := by rw [K.frame]; norm_num
  refine ⟨_, encryptAndHash_run (S.held _ _ hk).2.2 ((S.held _ _ hk).2.1.trans K.cipher) (S.held _ _ hh).2.2
    ((S.held _ _ hh).2.1.trans K.h) (S.held _ _ hp).2.2 hn hov (ho ▸ S.space _ hof) ?_
    (frame_apart (by simp) hf K.cipher.ge) (frame_apart (by simp) hf K.h.ge) (S.apartFrame hp hf le_rfl)
    (frame_apart hof hf ho.ge), ((S.put w1 hof ?_).put w2 (by simp) ?_).wipe hf⟩
  · have := L.apart out .h hoh
    rwa [ho, K.h] at this
  · rw [Aead.enc_length, ho]
  · rw [H_length, K.h]

theorem Sim.decrypt (S : Sim L W m0 m c) (K : L.Keys) {msg inp : Buf} {kb hv cb : Bytes} {n : UInt32} {nc : UInt64}
    (hk : c .cipher = some kb) (hh : c .h = some hv) (hc : c inp = some cb) (hcl : cb.length = n.toNat + 16)
    (hov : cb.length < 2 ^ 32) (hm : L.len msg = n.toNat) (hmf : msg ≠ .frame) (hmh : msg ≠ .h) (hmi : msg ≠ inp)
    (w1 : W msg) (w2 : W .h) :
    match Aead.dec kb (nonce nc) hv cb with
    | some pb => ∃ m', decryptAndHash (L.ptr .frame) n (L.ptr msg) (L.ptr inp) (L.ptr .cipher) (L.ptr .h) nc m =
          .ok (true, m') ∧
        Sim L W m0 m' (Function.update (Function.update c msg (some pb)) .h (some (H (hv ++ cb))))
    | none => ∃ m', decryptAndHash (L.ptr .frame) n (L.ptr msg) (L.ptr inp) (L.ptr .cipher) (L.ptr .h) nc m =
          .ok (false, m') ∧ Sim L W m0 m' (Function.update c msg (some (List.replicate n.toNat 0))) := by
  have hf : 12 ≤ L.len .frame := by rw [K.frame]; norm_num
  have hil := (S.held _ _ hc).2.1
  have h := decryptAndHash_run (sp := L.ptr .frame) (nc := nc) (S.held _ _ hk).2.2 ((S.held _ _ hk).2.1.trans K.cipher)
    (S.held _ _ hh).2.2 ((S.held _ _ hh).2.1.trans K.h) (S.held _ _ hc).2.2 hcl hov (hm ▸ S.space _ hmf)
    (by have := L.apart msg inp hmi; rwa [hm, ← hil] at this)
    (by have := L.apart msg .h hmh; rwa [hm, K.h] at this)
    (frame_apart (by simp) hf K.cipher.ge) (frame_apart (by simp) hf K.h.ge) (frame_apart hmf hf hm.ge)
    (S.apartFrame hc hf le_rfl)
  cases hd : Aead.dec kb (nonce nc) hv cb with
  | none =>
    rw [hd] at h
    exact ⟨_, h, (S.put w1 hmf (by rw [List.length_replicate, hm])).wipe hf⟩
  | some pb =>
    rw [hd] at h
    have hpb : pb.length = n.toNat := by have := Aead.dec_length _ _ _ _ _ hd; omega
    exact ⟨_, h, ((S.put w1 hmf (by rw [hpb, hm])).put w2 (by simp) (by rw [H_length, K.h])).wipe hf⟩

end

/-! ### Handshake states -/

/-- The contents of the buffers are this handshake state. -/
structure Rel (c : Buf → Option Bytes) (s : HS) : Prop where
  cipher : c .cipher = some s.cipherKey.toList
  ck : c .ck = some s.ck.toList
  h : c .h = some s.h.toList
  spriv : c .spriv = some s.spriv.toList
  spub : c .spub = some s.spub.toList
  epriv : c .epriv = some s.epriv.toList
  epub : c .epub = some s.epub.toList
  rs : c .rs = some s.rs.toList
  re : c .re = some s.re.toList

theorem Sim.shows (S : Sim L W m0 m c) {s : HS} (R : Rel c s) : Shows L m s :=
  ⟨(S.held _ _ R.cipher).2.2, (S.held _ _ R.ck).2.2, (S.held _ _ R.h).2.2, (S.held _ _ R.spriv).2.2,
    (S.held _ _ R.spub).2.2, (S.held _ _ R.epriv).2.2, (S.held _ _ R.epub).2.2, (S.held _ _ R.rs).2.2,
    (S.held _ _ R.re).2.2⟩

theorem mixHash_val (h : B64) (x : Bytes) : H (h.toList ++ x) = (Noise.mixHash h x).toList := rfl

variable [NoiseCrypto] [Aead]

/-- The outcome of a message to be sent. -/
def WroteIs (L : Layout) (W : Buf → Prop) (m0 : Mem) (r : HRes Bytes) (x : C (Option Err × Mem)) : Prop :=
  match r with
  | (.error e, s) => ∃ m' c', x = .ok (some e, m') ∧ Sim L W m0 m' c' ∧ Rel c' s
  | (.ok msg, s) => ∃ m' c' a b, x = .ok (none, m') ∧ Sim L W m0 m' c' ∧ Rel c' s ∧ c' .head = some a ∧
      c' .body = some b ∧ msg = a ++ b

theorem mixSeal_run (S : Sim L W m0 m c) (K : L.Keys) (E : SameCipher) {s : HS} (R : Rel c s) {sec pub : Buf} {x y : B32}
    {a pl : Bytes} {plen : UInt32} {n : ℕ} (hx : c sec = some x.toList) (hy : c pub = some y.toList) (ha : c .head = some a)
    (hp : c .payload = some pl) (hl : plen.toNat = pl.length) (hov : pl.length + 16 < 2 ^ 32)
    (hb : L.len .body = pl.length + 16) (wc : W .ck) (wk : W .cipher) (wb : W .body) (wh : W .h) :
    WroteIs L W m0 (match Noise.mixDh x y s.ck with
      | none => (.error .dhError, s)
      | some (ck, k) => (.ok (a ++ NoiseCrypto.aeadEnc k 0 s.h.toList pl),
          { s with step := n, ck, cipherKey := k, h := Noise.mixHash s.h (NoiseCrypto.aeadEnc k 0 s.h.toList pl) }))
      (mixSeal (L.ptr .frame) L.ptrs (L.ptr sec) (L.ptr pub) plen (L.ptr .payload) (L.ptr .body) m) := by
  have hd := S.mixDh K hx hy R.ck wc wk
  cases hdh : NoiseCrypto.dh x y with
  | none =>
    rw [hdh] at hd
    obtain ⟨m', hr, S'⟩ := hd
    simp only [Noise.mixDh, hdh, WroteIs]
    refine ⟨m', c, ?_, S', R⟩
    rw [mixSeal, show L.ptrs.cipher = L.ptr .cipher from rfl, show L.ptrs.ck = L.ptr .ck from rfl, bind_ok hr]
    rfl
  | some k =>
    rw [hdh] at hd
    obtain ⟨m1, hr, S1⟩ := hd
    obtain ⟨-, v1, -, v2⟩ := Props.C84_values [] [] s.ck k.toList
    have hk1 : Function.update (Function.update c .ck (some (HKDF s.ck.toList k.toList 1))) .cipher
        (some ((HKDF s.ck.toList k.toList 2).take 32)) .cipher = some (Noise.key32 (Noise.kdf s.ck k.toList).2).toList := by
      rw [Function.update_self, v2]
    obtain ⟨m2, hr2, S2⟩ := S1.encrypt K (n := plen) (nc := 0) (msg := .payload) (out := .body) hk1
      (hv := s.h.toList) (by simpa using R.h) (by simpa using hp) hl hov hb (by simp) (by simp) wb wh
    simp only [Noise.mixDh, hdh, WroteIs]
    rw [← E.1] at S2
    refine ⟨m2, _, a, _, ?_, S2, ?_, ?_, ?_, rfl⟩
    · rw [mixSeal, show L.ptrs.cipher = L.ptr .cipher from rfl, show L.ptrs.ck = L.ptr .ck from rfl,
        show L.ptrs.h = L.ptr .h from rfl, bind_ok hr, if_pos rfl, bind_ok hr2]
      rfl
    · constructor <;> simp [R.spriv, R.spub, R.epriv, R.epub, R.rs, R.re, v1, v2, mixHash_val]
    · simpa using ha
    · simp

end

end Verif.Prim
