import Verif.Proofs.Prim

/-!
# The functions of the symmetric state on memory
-/

namespace Verif.Prim

open Spec.Prim

variable {m : Mem} {a n sp : ℕ} {b p q : Bytes}

theorem fill_piece {x : ℕ} (hx : x = a + p.length) (hn : b.length = n) :
    fill x 0 n (wrote a (p ++ (b ++ q)) m) = .ok ((), wrote a (p ++ (List.replicate n 0 ++ q)) m) := by
  subst hx
  have h := (holds_piece (m := m) (a := a) (p := p) (b := b) (q := q)).space
  rw [fill_run (hn ▸ h), cleared, wrote_piece (by simp [hn])]

theorem zeros_behind {x k : ℕ} (hx : x = a + p.length) : zeros x k (wrote a p m) =
    .ok ((), wrote a (p ++ List.replicate k 0) m) := by
  subst hx
  rw [zeros_run, cleared, wrote_append]

theorem replicate_join (i j k : ℕ) (h : k = i + j) :
    (List.replicate i 0 ++ List.replicate j 0 : Bytes) = List.replicate k 0 := by
  rw [h, List.replicate_append_replicate]

section
variable [Hashes]

theorem hash_run {output input : ℕ} {inlen : UInt32} {x : Bytes} (hx : Holds m input x) (hl : inlen.toNat = x.length)
    (ho : Space m output 64) : hash output inlen input m = .ok ((), wrote output (H x) m) := by
  rw [hash, bind_ok (get_run hx hl), put_run (by simpa using ho)]; rfl

theorem mixHash_run {hash1 input : ℕ} {inlen : UInt32} {hv x : Bytes} (hh : Holds m hash1 hv) (hhl : hv.length = 64)
    (hx : Holds m input x) (hl : inlen.toNat = x.length) :
    mixHash hash1 inlen input m = .ok ((), wrote hash1 (H (hv ++ x)) m) := by
  have hs : Space m hash1 64 := hhl ▸ hh.space
  rw [mixHash, bind_ok (get_run hh hhl.symm), bind_ok (get_run hx hl), put_run (by simpa using hs)]; rfl

section
variable [Aead]

theorem encryptAndHash_run {msgLen : UInt32} {msg cipher k h : ℕ} {nc : UInt64} {kb hv pb : Bytes}
    (hk : Holds m k kb) (hkl : kb.length = 32) (hh : Holds m h hv) (hhl : hv.length = 64)
    (hp : Holds m msg pb) (hpl : msgLen.toNat = pb.length) (hov : pb.length + 16 < 2 ^ 32)
    (hc : Space m cipher (pb.length + 16)) (ach : Apart cipher (pb.length + 16) h 64)
    (ak : Apart sp 12 k 32) (ah : Apart sp 12 h 64) (ap : Apart sp 12 msg pb.length)
    (ac : Apart sp 12 cipher (pb.length + 16)) :
    encryptAndHash sp msgLen msg cipher k h nc m = .ok ((), cleared sp 12
      (wrote h (H (hv ++ Aead.enc kb (nonce nc) hv pb)) (wrote cipher (Aead.enc kb (nonce nc) hv pb) m))) := by
  have he : (Aead.enc kb (nonce nc) hv pb).length = pb.length + 16 := Aead.enc_length ..
  have hn : (msgLen + 16).toNat = (Aead.enc kb (nonce nc) hv pb).length := by
    rw [UInt32.toNat_add, hpl, he]; exact Nat.mod_eq_of_lt hov
  rw [encryptAndHash, bind_ok (aeadEncrypt_run hk hkl hh (by rw [hhl]; rfl) hp hpl hc ak (by rw [hhl]; exact ah) ap ac),
    mixHash_run (hv := hv) (x := Aead.enc kb (nonce nc) hv pb) ?_ hhl ?_ hn, cleared,
    wrote_comm (by rw [H_length, List.length_replicate]; unfold Apart at *; omega)]
  · rfl
  · exact (hh.wrote (by rw [he, hhl]; exact ach)).wrote (by rw [List.length_replicate, hhl]; exact ah)
  · exact holds_wrote.wrote (by rw [List.length_replicate, he]; exact ac)

theorem decryptAndHash_run {msgLen : UInt32} {msg cipher k h : ℕ} {nc : UInt64} {kb hv cb : Bytes}
    (hk : Holds m k kb) (hkl : kb.length = 32) (hh : Holds m h hv) (hhl : hv.length = 64)
    (hc : Holds m cipher cb) (hcl : cb.length = msgLen.toNat + 16) (hov : cb.length < 2 ^ 32)
    (hp : Space m msg msgLen.toNat) (apc : Apart msg msgLen.toNat cipher cb.length) (aph : Apart msg msgLen.toNat h 64)
    (ak : Apart sp 12 k 32) (ah : Apart sp 12 h 64) (ap : Apart sp 12 msg msgLen.toNat) (ac : Apart sp 12 cipher cb.length) :
    decryptAndHash sp msgLen msg cipher k h nc m =
      match Aead.dec kb (nonce nc) hv cb with
      | some pb => .ok (true, cleared sp 12 (wrote h (H (hv ++ cb)) (wrote msg pb m)))
      | none => .ok (false, cleared sp 12 (cleared msg msgLen.toNat m)) := by
  have hn : (msgLen + 16).toNat = cb.length := by
    rw [UInt32.toNat_add, hcl]; exact Nat.mod_eq_of_lt (hcl ▸ hov)
  have hrun := aeadDecrypt_run (nc := nc) hk hkl hh (aadLen := 64) (by rw [hhl]; rfl) hc hcl hov hp ak
    (by rw [hhl]; exact ah) ac ap
  rw [decryptAndHash]
  cases hd : Aead.dec kb (nonce nc) hv cb with
  | none =>
    rw [hd] at hrun
    rw [bind_ok hrun]
    rfl
  | some pb =>
    rw [hd] at hrun
    have hpb : pb.length = msgLen.toNat := by have := Aead.dec_length _ _ _ _ _ hd; omega
    rw [bind_ok hrun, if_pos rfl, bind_ok (mixHash_run (hv := hv) (x := cb) ?_ hhl ?_ hn), pure_run, cleared,
      wrote_comm (by rw [H_length, List.length_replicate]; unfold Apart at *; omega)]
    · rfl
    · exact (hh.wrote (by rw [hpb, hhl]; exact aph)).wrote (by rw [List.length_replicate, hhl]; exact ah)
    · exact (hc.wrote (by rw [hpb]; exact apc)).wrote (by rw [List.length_replicate]; exact ac)

end

theorem splitKeys_run {ck k1 k2 : ℕ} {cv : Bytes} (hc : Holds m ck cv) (hcl : cv.length = 64) (h1 : Space m k1 32)
    (h2 : Space m k2 32) (h0 : sp ≠ 0) (ac : Apart sp 385 ck 64) (a1 : Apart sp 385 k1 32) (a2 : Apart sp 385 k2 32) :
    splitKeys sp ck k1 k2 m = .ok ((), cleared sp 385
      (wrote k2 ((HKDF cv [] 2).take 32) (wrote k1 ((HKDF cv [] 1).take 32) m))) := by
  have l1 : (HKDF cv [] 1).length = 64 := HKDF_length (by simp)
  have l2 : (HKDF cv [] 2).length = 64 := HKDF_length (by simp)
  have z0 : zeros sp 64 m = .ok ((), wrote sp (List.replicate 64 0) m) := zeros_run
  have z1 : zeros (sp + 64) 64 (wrote sp (List.replicate 64 0) m) =
      .ok ((), wrote sp (List.replicate 64 0 ++ List.replicate 64 0) m) := zeros_behind (by simp)
  have hk := kdf_run (sp := sp + 128) (m := wrote sp (List.replicate 64 0 ++ List.replicate 64 0) m) (hash1 := ck)
    (key := 0) (dst1 := sp) (dst2 := sp + 64) (dst3 := 0) (keylen := 0) (ck := cv) (ikm := [])
    (hc.wrote (by rw [hcl]; simp; unfold Apart at *; omega)) hcl holds_nil rfl (by unfold Apart at *; omega)
    (by unfold Apart; simp) (by
      intro d hd hd0
      simp only [List.mem_cons, List.not_mem_nil, or_false] at hd
      have hs : Space (wrote sp (List.replicate 64 0 ++ List.replicate 64 0) m) sp 128 := by
        have := (holds_wrote (m := m) (a := sp) (b := List.replicate 64 0 ++ List.replicate 64 0)).space
        simpa using this
      rcases hd with rfl | rfl | rfl
      · exact ⟨fun i hi => hs i (by omega), by unfold Apart; omega⟩
      · refine ⟨fun i hi => ?_, by unfold Apart; omega⟩
        rw [Nat.add_assoc]
        exact hs (64 + i) (by omega)
      · exact absurd rfl hd0)
  have hdel : cleared (sp + 128) 257 (delivered cv [] 1 [sp, sp + 64, 0]
      (wrote sp (List.replicate 64 0 ++ List.replicate 64 0) m)) =
      wrote sp (HKDF cv [] 1 ++ (HKDF cv [] 2 ++ List.replicate 257 0)) m := by
    rw [delivered, if_neg h0, delivered, if_neg (by omega), delivered, if_pos rfl]
    have e1 := wrote_piece (m := m) (a := sp) (p := []) (b := List.replicate 64 0) (b' := HKDF cv [] 1)
      (q := List.replicate 64 0) (by simp [l1])
    rw [List.nil_append, List.length_nil, Nat.add_zero, List.nil_append] at e1
    have e2 := wrote_piece (m := m) (a := sp) (p := HKDF cv [] 1) (b := List.replicate 64 0) (b' := HKDF cv [] 2)
      (q := []) (by simp [l2])
    rw [List.append_nil, List.append_nil, l1] at e2
    have e3 : sp + 128 = sp + (HKDF cv [] 1 ++ HKDF cv [] 2).length := by simp [l1, l2]
    rw [e1, show (1 : ℕ) + 1 = 2 from rfl, e2, cleared, e3, wrote_append, List.append_assoc]
  have c1 : ∀ mm, Holds (wrote sp (HKDF cv [] 1 ++ (HKDF cv [] 2 ++ List.replicate 257 0)) mm) sp ((HKDF cv [] 1).take 32) :=
    fun mm => by
      have h := holds_wrote (m := mm) (a := sp) (b := HKDF cv [] 1 ++ (HKDF cv [] 2 ++ List.replicate 257 0))
      have h' := (holds_append.1 h).1
      conv at h' => rhs; rw [← List.take_append_drop 32 (HKDF cv [] 1)]
      exact (holds_append.1 h').1
  have c2 : ∀ mm, Holds (wrote sp (HKDF cv [] 1 ++ (HKDF cv [] 2 ++ List.replicate 257 0)) mm) (sp + 64)
      ((HKDF cv [] 2).take 32) := fun mm => by
      have h' := holds_piece (m := mm) (a := sp) (p := HKDF cv [] 1) (b := HKDF cv [] 2) (q := List.replicate 257 0)
      rw [l1] at h'
      conv at h' => rhs; rw [← List.take_append_drop 32 (HKDF cv [] 2)]
      exact (holds_append.1 h').1
  have hlen : (HKDF cv [] 1 ++ (HKDF cv [] 2 ++ List.replicate 257 0)).length = 385 := by
    rw [List.length_append, List.length_append, List.length_replicate, l1, l2]
  have t1 : ((HKDF cv [] 1).take 32).length = 32 := by simp [l1]
  have t2 : ((HKDF cv [] 2).take 32).length = 32 := by simp [l2]
  rw [splitKeys, bind_ok z0, bind_ok z1, bind_ok hk, hdel,
    bind_ok (memcpy_run (c1 _) t1.symm (Space.wrote h1) (by unfold Apart at *; omega)),
    wrote_comm (by rw [t1, hlen]; unfold Apart at *; omega),
    bind_ok (memcpy_run (c2 _) t2.symm (Space.wrote (Space.wrote h2)) (by unfold Apart at *; omega)),
    wrote_comm (by rw [t2, hlen]; unfold Apart at *; omega)]
  have f1 := fill_piece (m := wrote k2 ((HKDF cv [] 2).take 32) (wrote k1 ((HKDF cv [] 1).take 32) m)) (a := sp) (x := sp)
    (p := []) (b := HKDF cv [] 1) (q := HKDF cv [] 2 ++ List.replicate 257 0) (by simp) l1
  have f2 := fill_piece (m := wrote k2 ((HKDF cv [] 2).take 32) (wrote k1 ((HKDF cv [] 1).take 32) m)) (a := sp) (x := sp + 64)
    (p := List.replicate 64 0) (b := HKDF cv [] 2) (q := List.replicate 257 0) (by simp) l2
  rw [List.nil_append, List.nil_append] at f1
  rw [bind_ok f1, f2, replicate_join 64 257 321 rfl, replicate_join 64 321 385 rfl]
  rfl

theorem mixPsk_run {psk k ck h : ℕ} {pb cv hv : Bytes} (hp : Holds m psk pb) (hpl : pb.length = 32)
    (hc : Holds m ck cv) (hcl : cv.length = 64) (hh : Holds m h hv) (hhl : hv.length = 64) (hk : Space m k 32)
    (h0 : sp ≠ 0) (hc0 : ck ≠ 0) (ap : Apart sp 385 psk 32) (ac : Apart sp 385 ck 64) (ah : Apart sp 385 h 64)
    (ak : Apart sp 385 k 32) (ahc : Apart h 64 ck 64) (ahk : Apart h 64 k 32) :
    mixPsk sp psk k ck h m = .ok ((), cleared sp 385 (wrote h (H (hv ++ HKDF cv pb 2))
      (wrote k ((HKDF cv pb 3).take 32) (wrote ck (HKDF cv pb 1) m)))) := by
  have l1 : (HKDF cv pb 1).length = 64 := HKDF_length (by simp)
  have l2 : (HKDF cv pb 2).length = 64 := HKDF_length (by simp)
  have l3 : (HKDF cv pb 3).length = 64 := HKDF_length (by simp)
  have z0 : zeros sp 64 m = .ok ((), wrote sp (List.replicate 64 0) m) := zeros_run
  have z1 : zeros (sp + 64) 64 (wrote sp (List.replicate 64 0) m) =
      .ok ((), wrote sp (List.replicate 64 0 ++ List.replicate 64 0) m) := zeros_behind (by simp)
  have hrun := kdf_run (sp := sp + 128) (m := wrote sp (List.replicate 64 0 ++ List.replicate 64 0) m) (hash1 := ck)
    (key := psk) (dst1 := ck) (dst2 := sp) (dst3 := sp + 64) (keylen := 32) (ck := cv) (ikm := pb)
    (hc.wrote (by rw [hcl]; simp; unfold Apart at *; omega)) hcl
    (hp.wrote (by rw [hpl]; simp; unfold Apart at *; omega)) (by rw [hpl]; rfl) (by unfold Apart at *; omega)
    (by rw [hpl]; unfold Apart at *; omega) (by
      intro d hd hd0
      simp only [List.mem_cons, List.not_mem_nil, or_false] at hd
      have hs : Space (wrote sp (List.replicate 64 0 ++ List.replicate 64 0) m) sp 128 := by
        have := (holds_wrote (m := m) (a := sp) (b := List.replicate 64 0 ++ List.replicate 64 0)).space
        simpa using this
      rcases hd with rfl | rfl | rfl
      · exact ⟨Space.wrote (hcl ▸ hc.space), by unfold Apart at *; omega⟩
      · exact ⟨fun i hi => hs i (by omega), by unfold Apart; omega⟩
      · refine ⟨fun i hi => ?_, by unfold Apart; omega⟩
        rw [Nat.add_assoc]
        exact hs (64 + i) (by omega))
  have hdel : cleared (sp + 128) 257 (delivered cv pb 1 [ck, sp, sp + 64]
      (wrote sp (List.replicate 64 0 ++ List.replicate 64 0) m)) =
      wrote sp (HKDF cv pb 2 ++ (HKDF cv pb 3 ++ List.replicate 257 0)) (wrote ck (HKDF cv pb 1) m) := by
    rw [delivered, if_neg hc0, delivered, if_neg h0, delivered, if_neg (by omega), delivered]
    rw [wrote_comm (a := ck) (by rw [l1]; simp; unfold Apart at *; omega)]
    have e1 := wrote_piece (m := wrote ck (HKDF cv pb 1) m) (a := sp) (p := []) (b := List.replicate 64 0)
      (b' := HKDF cv pb 2) (q := List.replicate 64 0) (by simp [l2])
    rw [List.nil_append, List.length_nil, Nat.add_zero, List.nil_append] at e1
    have e2 := wrote_piece (m := wrote ck (HKDF cv pb 1) m) (a := sp) (p := HKDF cv pb 2) (b := List.replicate 64 0)
      (b' := HKDF cv pb 3) (q := []) (by simp [l3])
    rw [List.append_nil, List.append_nil, l2] at e2
    have e3 : sp + 128 = sp + (HKDF cv pb 2 ++ HKDF cv pb 3).length := by simp [l2, l3]
    rw [show (1 : ℕ) + 1 = 2 from rfl, e1, show (2 : ℕ) + 1 = 3 from rfl, e2, cleared, e3, wrote_append, List.append_assoc]
  have hlen : ∀ x y : Bytes, x.length = 64 → y.length = 64 → (x ++ (y ++ List.replicate 257 (0 : UInt8))).length = 385 := by
    intro x y hx hy
    rw [List.length_append, List.length_append, List.length_replicate, hx, hy]
  have c2 : ∀ mm, Holds (wrote sp (HKDF cv pb 2 ++ (HKDF cv pb 3 ++ List.replicate 257 0)) mm) (sp + 64)
      ((HKDF cv pb 3).take 32) := fun mm => by
      have h' := holds_piece (m := mm) (a := sp) (p := HKDF cv pb 2) (b := HKDF cv pb 3) (q := List.replicate 257 0)
      rw [l2] at h'
      conv at h' => rhs; rw [← List.take_append_drop 32 (HKDF cv pb 3)]
      exact (holds_append.1 h').1
  have t3 : ((HKDF cv pb 3).take 32).length = 32 := by simp [l3]
  have f1 : ∀ mm, fill (sp + 64) 0 64 (wrote sp (HKDF cv pb 2 ++ (HKDF cv pb 3 ++ List.replicate 257 0)) mm) =
      .ok ((), wrote sp (HKDF cv pb 2 ++ (List.replicate 64 0 ++ List.replicate 257 0)) mm) :=
    fun mm => fill_piece (by rw [l2]) l3
  have f2 : ∀ mm, fill sp 0 64 (wrote sp (HKDF cv pb 2 ++ (List.replicate 64 0 ++ List.replicate 257 0)) mm) =
      .ok ((), cleared sp 385 mm) := fun mm => by
    have := fill_piece (m := mm) (a := sp) (x := sp) (p := []) (b := HKDF cv pb 2)
      (q := List.replicate 64 0 ++ List.replicate 257 0) (by simp) l2
    rw [List.nil_append, List.nil_append] at this
    rw [this, replicate_join 64 257 321 rfl, replicate_join 64 321 385 rfl]
    rfl
  rw [mixPsk, bind_ok z0, bind_ok z1, bind_ok hrun, hdel,
    bind_ok (memcpy_run (c2 _) t3.symm (Space.wrote (Space.wrote hk)) (by unfold Apart at *; omega)),
    wrote_comm (by rw [t3, hlen _ _ l2 l3]; unfold Apart at *; omega), bind_ok (f1 _),
    bind_ok (mixHash_run (hv := hv) (x := HKDF cv pb 2) ?_ hhl ?_ (by rw [l2]; rfl)),
    wrote_comm (by rw [H_length, hlen _ _ l2 (by simp)]; unfold Apart at *; omega), f2]
  · refine Holds.wrote (Holds.wrote (Holds.wrote hh ?_) ?_) ?_
    · rw [l1, hhl]; unfold Apart at *; omega
    · rw [t3, hhl]; unfold Apart at *; omega
    · rw [hlen _ _ l2 (by simp), hhl]; unfold Apart at *; omega
  · exact (holds_append.1 holds_wrote).1

section
variable [NoiseCrypto]

theorem dh_run {dest priv pub : ℕ} {x y : Bytes} (hx : Holds m priv x) (hxl : x.length = 32) (hy : Holds m pub y)
    (hyl : y.length = 32) (hd : Space m dest 32) :
    dh dest priv pub m =
      match NoiseCrypto.dh (toB32 x) (toB32 y) with
      | some s => .ok (true, wrote dest s.toList m)
      | none => .ok (false, m) := by
  rw [dh, bind_ok (get_run hx hxl.symm), bind_ok (get_run hy hyl.symm)]
  cases NoiseCrypto.dh (toB32 x) (toB32 y) with
  | none => rfl
  | some s =>
    dsimp only
    rw [bind_ok (put_run (by simpa using hd)), pure_run]

theorem mixDh_run {sec pub k ck : ℕ} {x y cv : Bytes} (hx : Holds m sec x) (hxl : x.length = 32) (hy : Holds m pub y)
    (hyl : y.length = 32) (hc : Holds m ck cv) (hcl : cv.length = 64) (hk : Space m k 32) (hc0 : ck ≠ 0)
    (ax : Apart sp 353 sec 32) (ay : Apart sp 353 pub 32) (ac : Apart sp 353 ck 64) (ak : Apart sp 353 k 32) :
    mixDh sp sec pub k ck m =
      match NoiseCrypto.dh (toB32 x) (toB32 y) with
      | some s => .ok (true, cleared sp 353 (wrote k ((HKDF cv s.toList 2).take 32) (wrote ck (HKDF cv s.toList 1) m)))
      | none => .ok (false, cleared sp 32 m) := by
  have z0 : zeros sp 32 m = .ok ((), wrote sp (List.replicate 32 0) m) := zeros_run
  have hsp : Space (wrote sp (List.replicate 32 0) m) sp 32 := by
    have := (holds_wrote (m := m) (a := sp) (b := List.replicate 32 0)).space
    simpa using this
  have hd := dh_run (dest := sp) (m := wrote sp (List.replicate 32 0) m)
    (hx.wrote (by rw [hxl]; simp; unfold Apart at *; omega)) hxl
    (hy.wrote (by rw [hyl]; simp; unfold Apart at *; omega)) hyl hsp
  rw [mixDh, bind_ok z0]
  cases hdh : NoiseCrypto.dh (toB32 x) (toB32 y) with
  | none =>
    rw [hdh] at hd
    rw [bind_ok hd, if_neg (by simp), bind_ok (pure_run false), bind_ok (fill_run hsp), pure_run, cleared,
      wrote_wrote (by simp)]
    rfl
  | some s =>
    rw [hdh] at hd
    have hs : s.toList.length = 32 := by simp
    dsimp only at hd ⊢
    rw [wrote_wrote (by simp)] at hd
    generalize s.toList = sl at hs hd ⊢
    have l1 : (HKDF cv sl 1).length = 64 := HKDF_length (by simp)
    have l2 : (HKDF cv sl 2).length = 64 := HKDF_length (by simp)
    have z1 : zeros (sp + 32) 64 (wrote sp sl m) = .ok ((), wrote sp (sl ++ List.replicate 64 0) m) :=
      zeros_behind (by rw [hs])
    have h2 : Holds (wrote sp (sl ++ List.replicate 64 0) m) (sp + 32) (List.replicate 64 0) := by
      have := (holds_append.1 (holds_wrote (m := m) (a := sp) (b := sl ++ List.replicate 64 0))).2
      rwa [hs] at this
    have hrun := kdf_run (sp := sp + 96) (m := wrote sp (sl ++ List.replicate 64 0) m) (hash1 := ck)
      (key := sp) (dst1 := ck) (dst2 := sp + 32) (dst3 := 0) (keylen := 32) (ck := cv) (ikm := sl)
      (hc.wrote (by rw [hcl]; simp [hs]; unfold Apart at *; omega)) hcl
      (holds_append.1 (holds_wrote (m := m) (a := sp) (b := sl ++ List.replicate 64 0))).1 (by rw [hs]; rfl)
      (by unfold Apart at *; omega) (by rw [hs]; unfold Apart at *; omega) (by
        intro d hd hd0
        simp only [List.mem_cons, List.not_mem_nil, or_false] at hd
        rcases hd with rfl | rfl | rfl
        · exact ⟨Space.wrote (hcl ▸ hc.space), by unfold Apart at *; omega⟩
        · refine ⟨?_, by unfold Apart; omega⟩
          have := h2.space
          rwa [List.length_replicate] at this
        · exact absurd rfl hd0)
    have hdel : cleared (sp + 96) 257 (delivered cv sl 1 [ck, sp + 32, 0] (wrote sp (sl ++ List.replicate 64 0) m)) =
        wrote sp (sl ++ (HKDF cv sl 2 ++ List.replicate 257 0)) (wrote ck (HKDF cv sl 1) m) := by
      rw [delivered, if_neg hc0, delivered, if_neg (by omega), delivered, if_pos rfl]
      rw [wrote_comm (a := ck) (by rw [l1]; simp [hs]; unfold Apart at *; omega)]
      have e2 := wrote_piece (m := wrote ck (HKDF cv sl 1) m) (a := sp) (p := sl) (b := List.replicate 64 0)
        (b' := HKDF cv sl 2) (q := []) (by simp [l2])
      rw [List.append_nil, List.append_nil, hs] at e2
      have e3 : sp + 96 = sp + (sl ++ HKDF cv sl 2).length := by simp [l2, hs]
      rw [show (1 : ℕ) + 1 = 2 from rfl, e2, cleared, e3, wrote_append, List.append_assoc]
    have c2 : ∀ mm, Holds (wrote sp (sl ++ (HKDF cv sl 2 ++ List.replicate 257 0)) mm) (sp + 32)
        ((HKDF cv sl 2).take 32) := fun mm => by
        have h' := holds_piece (m := mm) (a := sp) (p := sl) (b := HKDF cv sl 2) (q := List.replicate 257 0)
        rw [hs] at h'
        conv at h' => rhs; rw [← List.take_append_drop 32 (HKDF cv sl 2)]
        exact (holds_append.1 h').1
    have t2 : ((HKDF cv sl 2).take 32).length = 32 := by simp [l2]
    have hlen : (sl ++ (HKDF cv sl 2 ++ List.replicate 257 (0 : UInt8))).length = 353 := by
      rw [List.length_append, List.length_append, List.length_replicate, hs, l2]
    have f1 : ∀ mm, fill (sp + 32) 0 64 (wrote sp (sl ++ (HKDF cv sl 2 ++ List.replicate 257 0)) mm) =
        .ok ((), wrote sp (sl ++ (List.replicate 64 0 ++ List.replicate 257 0)) mm) :=
      fun mm => fill_piece (by rw [hs]) l2
    have f2 : ∀ mm, fill sp 0 32 (wrote sp (sl ++ (List.replicate 64 0 ++ List.replicate 257 0)) mm) =
        .ok ((), cleared sp 353 mm) := fun mm => by
      have := fill_piece (m := mm) (a := sp) (x := sp) (p := []) (b := sl)
        (q := List.replicate 64 0 ++ List.replicate 257 0) (by simp) hs
      rw [List.nil_append, List.nil_append] at this
      rw [this, replicate_join 64 257 321 rfl, replicate_join 32 321 353 rfl]
      rfl
    have hblock : (do
        zeros (sp + 32) 64
        kdf (sp + 96) ck 32 sp ck (sp + 32) 0
        memcpy k (sp + 32) 32
        fill (sp + 32) 0 64
        pure true : P Bool) (wrote sp sl m) = .ok (true, wrote sp (sl ++ (List.replicate 64 0 ++ List.replicate 257 0))
          (wrote k ((HKDF cv sl 2).take 32) (wrote ck (HKDF cv sl 1) m))) := by
      rw [bind_ok z1, bind_ok hrun, hdel,
        bind_ok (memcpy_run (c2 _) t2.symm (Space.wrote (Space.wrote hk)) (by unfold Apart at *; omega)),
        wrote_comm (by rw [t2, hlen]; unfold Apart at *; omega), bind_ok (f1 _), pure_run]
    rw [bind_ok hd, if_pos rfl, bind_ok hblock, bind_ok (f2 _), pure_run]

end

end

end Verif.Prim
