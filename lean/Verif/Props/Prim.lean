import Verif.Proofs.PrimMix

/-!
# HMAC, HKDF and the symmetric state of the Noise library

The buffers of the caller may overlap unless a hypothesis keeps them apart. Every theorem gives the whole memory after the
call: the results, the zeros in the frame and nothing else.
-/

namespace Verif.Props

open Prim Spec.Prim

variable {m : Mem} {sp : ℕ}

/-- A memory of which all bytes are 7. -/
theorem sevens {a n : ℕ} : Holds (fun _ => .val 7) a (List.replicate n 7) := fun i h => by rw [List.getElem_replicate]

theorem sevens_space {a n : ℕ} : Space (fun _ => .val 7) a n := fun i _ => by simp

theorem sevens_length {n k : ℕ} (h : k = n) : (List.replicate n (7 : UInt8)).length = k := by rw [List.length_replicate, h]

section
variable [Hashes]

/-- `Noise_XK_hmac` is HMAC for keys and data of all lengths, also when the output overlaps the key or the data, and leaves
no copy of the key. -/
theorem C84_hmac {output key data : ℕ} {keylen datalen : UInt32} {kb db : Bytes}
    (hk : Holds m key kb) (hkl : keylen.toNat = kb.length) (hd : Holds m data db) (hdl : datalen.toNat = db.length)
    (ho : Space m output 64) (ak : Apart sp 128 key kb.length) (ad : Apart sp 128 data db.length)
    (ao : Apart sp 128 output 64) :
    hmac sp output keylen key datalen data m = .ok ((), cleared sp 128 (wrote output (HMAC kb db) m)) :=
  hmac_run hk hkl hd hdl ho ak ad ao

/-- Key, data and output in one buffer. -/
example : hmac 4096 100 64 100 64 100 (fun _ => .val 7) = .ok ((), cleared 4096 128
    (wrote 100 (HMAC (List.replicate 64 7) (List.replicate 64 7)) (fun _ => .val 7))) :=
  C84_hmac sevens (by rw [List.length_replicate]; rfl) sevens (by rw [List.length_replicate]; rfl) sevens_space
    (by rw [List.length_replicate]; unfold Apart; omega) (by rw [List.length_replicate]; unfold Apart; omega)
    (by unfold Apart; omega)

/-- A key that is longer than a block. -/
example : hmac 4096 100 200 1000 3 102 (fun _ => .val 7) = .ok ((), cleared 4096 128
    (wrote 100 (HMAC (List.replicate 200 7) (List.replicate 3 7)) (fun _ => .val 7))) :=
  C84_hmac sevens (by rw [List.length_replicate]; rfl) sevens (by rw [List.length_replicate]; rfl) sevens_space
    (by rw [List.length_replicate]; unfold Apart; omega) (by rw [List.length_replicate]; unfold Apart; omega)
    (by unfold Apart; omega)

/-- `Noise_XK_kdf` writes the outputs of HKDF to the pointers up to the first NULL, also when they overlap the chaining key
or the input, and leaves neither the pseudorandom key nor an output in its frame. -/
theorem C84_kdf {hash1 key dst1 dst2 dst3 : ℕ} {keylen : UInt32} {ck ikm : Bytes}
    (hh : Holds m hash1 ck) (hhl : ck.length = 64) (hk : Holds m key ikm) (hkl : keylen.toNat = ikm.length)
    (ah : Apart sp 257 hash1 64) (ak : Apart sp 257 key ikm.length)
    (hd : ∀ d ∈ [dst1, dst2, dst3], d ≠ 0 → Space m d 64 ∧ Apart sp 257 d 64) :
    kdf sp hash1 keylen key dst1 dst2 dst3 m = .ok ((), cleared sp 257 (delivered ck ikm 1 [dst1, dst2, dst3] m)) :=
  kdf_run hh hhl hk hkl ah ak hd

/-- The chaining key is replaced in place, the third output is not asked for. -/
example : kdf 4096 100 32 200 100 300 0 (fun _ => .val 7) = .ok ((), cleared 4096 257
    (wrote 300 (HKDF (List.replicate 64 7) (List.replicate 32 7) 2)
      (wrote 100 (HKDF (List.replicate 64 7) (List.replicate 32 7) 1) (fun _ => .val 7)))) :=
  C84_kdf (ck := List.replicate 64 7) (ikm := List.replicate 32 7) sevens (by simp) sevens
    (by simp) (by unfold Apart; simp) (by unfold Apart; simp) (by
      intro d hd _
      simp only [List.mem_cons, List.not_mem_nil, or_false] at hd
      refine ⟨fun i h => by simp, ?_⟩
      unfold Apart
      omega)

/-- The functions of `Model/Noise.lean` are these ones. -/
theorem C84_values (k d : Bytes) (ck : B64) (ikm : Bytes) :
    (Noise.hmac k d).toList = HMAC k d ∧ (Noise.kdf ck ikm).1.toList = HKDF ck.toList ikm 1 ∧
      (Noise.kdf ck ikm).2.toList = HKDF ck.toList ikm 2 ∧
      (Noise.key32 (Noise.kdf ck ikm).2).toList = (HKDF ck.toList ikm 2).take 32 := by
  have hm : ∀ k d : Bytes, (Noise.hmac k d).toList = HMAC k d := by
    intro k d
    have hb : (if k.length ≤ 128 then k ++ List.replicate (128 - k.length) 0
        else (Hashes.generichash64 k).toList ++ List.replicate (128 - 64) 0) = blockKey k := by
      split
      · rename_i h; exact (blockKey_short h).symm
      · rename_i h; exact (blockKey_long (by omega)).symm
    unfold Noise.hmac
    simp only [Noise.xorKey]
    rw [hb, opad_eq]
    rfl
  have h1 : (Noise.kdf ck ikm).1.toList = HKDF ck.toList ikm 1 := by
    show (Noise.hmac (Noise.hmac ck.toList ikm).toList [1]).toList = _
    rw [hm, hm]; rfl
  have h2 : (Noise.kdf ck ikm).2.toList = HKDF ck.toList ikm 2 := by
    show (Noise.hmac (Noise.hmac ck.toList ikm).toList ((Noise.kdf ck ikm).1.toList ++ [2])).toList = _
    rw [hm, hm, h1]; rfl
  refine ⟨hm k d, h1, h2, ?_⟩
  rw [Noise.key32, toB32_list (by simp), h2]

end

/-! ### Comparison and nonces -/

/-- `Noise_XK_lbytes_eq` compares all bytes, whatever the contents. -/
theorem C85_lbytes {b1 b2 : ℕ} {len : UInt32} {x y : Bytes} (hx : Holds m b1 x) (hy : Holds m b2 y)
    (hxl : len.toNat = x.length) (hyl : len.toNat = y.length) : lbytesEq len b1 b2 m = .ok (decide (x = y), m) :=
  lbytesEq_run hx hy hxl (hxl ▸ hyl)

example : lbytesEq 3 10 20 (wrote 20 [1, 2, 4] (wrote 10 [1, 2, 3] (fun _ => .uninit))) =
    .ok (false, wrote 20 [1, 2, 4] (wrote 10 [1, 2, 3] (fun _ => .uninit))) :=
  C85_lbytes (x := [1, 2, 3]) (y := [1, 2, 4]) (holds_wrote.wrote (by unfold Apart; simp)) holds_wrote rfl rfl

/-- The nonce that `Noise_XK_aead_encrypt` forms has 12 bytes and determines the counter; `Noise_XK_bytes_to_nonce` reads
the counter back. -/
theorem C85_nonce (n : UInt64) : (nonce n).length = 12 ∧ (∀ n', nonce n' = nonce n → n' = n) ∧
    ∀ a, Holds m a ((nonce n).drop 4) → bytesToNonce a m = .ok (n, m) := by
  have hd : ∀ n : UInt64, (nonce n).drop 4 = leBytes 8 n.toNat := fun n => by rw [nonce_eq]; simp
  have hn : ∀ n : UInt64, UInt64.ofNat (leNat (leBytes 8 n.toNat)) = n := fun n => by
    rw [leNat_leBytes, Nat.mod_eq_of_lt (by have := n.toNat_lt; omega), UInt64.ofNat_toNat]
  refine ⟨nonce_length n, fun n' h => ?_, fun a h => ?_⟩
  · rw [← hn n', ← hn n, ← hd, ← hd, h]
  · rw [hd] at h
    rw [bytesToNonce, bind_ok (get_run h (by simp)), pure_run, hn]

example : nonce 258 = [0, 0, 0, 0, 2, 1, 0, 0, 0, 0, 0, 0] := by decide

/-! ### The symmetric state -/

section
variable [Hashes]

/-- `Noise_XK_mix_hash`; the input may be the hash itself. -/
theorem C85_mixHash {hash1 input : ℕ} {inlen : UInt32} {hv x : Bytes} (hh : Holds m hash1 hv) (hhl : hv.length = 64)
    (hx : Holds m input x) (hl : inlen.toNat = x.length) :
    Prim.mixHash hash1 inlen input m = .ok ((), wrote hash1 (H (hv ++ x)) m) :=
  mixHash_run hh hhl hx hl

example : Prim.mixHash 10 64 10 (fun _ => .val 7) =
    .ok ((), wrote 10 (H (List.replicate 64 7 ++ List.replicate 64 7)) (fun _ => .val 7)) :=
  C85_mixHash sevens (by simp) sevens (by simp)

/-- The keys of the transport state: halves of the two outputs of HKDF with empty input, and an empty frame. -/
theorem C85_split {ck k1 k2 : ℕ} {cv : Bytes} (hc : Holds m ck cv) (hcl : cv.length = 64) (h1 : Space m k1 32)
    (h2 : Space m k2 32) (h0 : sp ≠ 0) (ac : Apart sp 385 ck 64) (a1 : Apart sp 385 k1 32) (a2 : Apart sp 385 k2 32) :
    splitKeys sp ck k1 k2 m = .ok ((), cleared sp 385
      (wrote k2 ((HKDF cv [] 2).take 32) (wrote k1 ((HKDF cv [] 1).take 32) m))) :=
  splitKeys_run hc hcl h1 h2 h0 ac a1 a2

example : splitKeys 4096 100 200 232 (fun _ => .val 7) = .ok ((), cleared 4096 385
    (wrote 232 ((HKDF (List.replicate 64 7) [] 2).take 32) (wrote 200 ((HKDF (List.replicate 64 7) [] 1).take 32)
      (fun _ => .val 7)))) :=
  C85_split sevens (by simp) sevens_space sevens_space (by simp)
    (by unfold Apart; simp) (by unfold Apart; simp) (by unfold Apart; simp)

/-- `Noise_XK_mix_psk` is `MixKeyAndHash` of the Noise specification and leaves nothing in its frame. -/
theorem C85_mixPsk {psk k ck h : ℕ} {pb cv hv : Bytes} (hp : Holds m psk pb) (hpl : pb.length = 32)
    (hc : Holds m ck cv) (hcl : cv.length = 64) (hh : Holds m h hv) (hhl : hv.length = 64) (hk : Space m k 32)
    (h0 : sp ≠ 0) (hc0 : ck ≠ 0) (ap : Apart sp 385 psk 32) (ac : Apart sp 385 ck 64) (ah : Apart sp 385 h 64)
    (ak : Apart sp 385 k 32) (ahc : Apart h 64 ck 64) (ahk : Apart h 64 k 32) :
    mixPsk sp psk k ck h m = .ok ((), cleared sp 385 (wrote h (H (hv ++ HKDF cv pb 2))
      (wrote k ((HKDF cv pb 3).take 32) (wrote ck (HKDF cv pb 1) m)))) :=
  mixPsk_run hp hpl hc hcl hh hhl hk h0 hc0 ap ac ah ak ahc ahk

example : mixPsk 4096 10 50 100 200 (fun _ => .val 7) = .ok ((), cleared 4096 385
    (wrote 200 (H (List.replicate 64 7 ++ HKDF (List.replicate 64 7) (List.replicate 32 7) 2))
      (wrote 50 ((HKDF (List.replicate 64 7) (List.replicate 32 7) 3).take 32)
        (wrote 100 (HKDF (List.replicate 64 7) (List.replicate 32 7) 1) (fun _ => .val 7))))) :=
  C85_mixPsk sevens (by simp) sevens (by simp) sevens (by simp)
    sevens_space (by simp) (by simp) (by unfold Apart; simp) (by unfold Apart; simp) (by unfold Apart; simp)
    (by unfold Apart; simp) (by unfold Apart; simp) (by unfold Apart; simp)

section
variable [NoiseCrypto]

/-- `Noise_XK_mix_dh` is `MixKey` of the Noise specification with the shared secret and leaves nothing in its frame; if the
exchange fails, nothing outside of the frame changes. -/
theorem C85_mixDh {sec pub k ck : ℕ} {x y cv : Bytes} (hx : Holds m sec x) (hxl : x.length = 32) (hy : Holds m pub y)
    (hyl : y.length = 32) (hc : Holds m ck cv) (hcl : cv.length = 64) (hk : Space m k 32) (hc0 : ck ≠ 0)
    (ax : Apart sp 353 sec 32) (ay : Apart sp 353 pub 32) (ac : Apart sp 353 ck 64) (ak : Apart sp 353 k 32) :
    Prim.mixDh sp sec pub k ck m =
      match NoiseCrypto.dh (toB32 x) (toB32 y) with
      | some s => .ok (true, cleared sp 353 (wrote k ((HKDF cv s.toList 2).take 32) (wrote ck (HKDF cv s.toList 1) m)))
      | none => .ok (false, cleared sp 32 m) :=
  mixDh_run hx hxl hy hyl hc hcl hk hc0 ax ay ac ak

example : ∃ r, Prim.mixDh 4096 10 50 100 200 (fun _ => .val 7) = .ok r := by
  rw [C85_mixDh (x := List.replicate 32 7) (y := List.replicate 32 7) (cv := List.replicate 64 7) sevens
    (by simp) sevens (by simp) sevens (by simp) sevens_space (by simp)
    (by unfold Apart; simp) (by unfold Apart; simp) (by unfold Apart; simp) (by unfold Apart; simp)]
  split <;> exact ⟨_, rfl⟩

end

section
variable [Aead]

/-- `Noise_XK_encrypt_and_hash`: the ciphertext with the hash as associated data, then the hash of hash and ciphertext; the
message may be encrypted in place. -/
theorem C85_encrypt {msgLen : UInt32} {msg cipher k h : ℕ} {nc : UInt64} {kb hv pb : Bytes}
    (hk : Holds m k kb) (hkl : kb.length = 32) (hh : Holds m h hv) (hhl : hv.length = 64)
    (hp : Holds m msg pb) (hpl : msgLen.toNat = pb.length) (hov : pb.length + 16 < 2 ^ 32)
    (hc : Space m cipher (pb.length + 16)) (ach : Apart cipher (pb.length + 16) h 64)
    (ak : Apart sp 12 k 32) (ah : Apart sp 12 h 64) (ap : Apart sp 12 msg pb.length)
    (ac : Apart sp 12 cipher (pb.length + 16)) :
    encryptAndHash sp msgLen msg cipher k h nc m = .ok ((), cleared sp 12
      (wrote h (H (hv ++ Aead.enc kb (nonce nc) hv pb)) (wrote cipher (Aead.enc kb (nonce nc) hv pb) m))) :=
  encryptAndHash_run hk hkl hh hhl hp hpl hov hc ach ak ah ap ac

/-- Encryption in place. -/
example : encryptAndHash 4096 5 500 500 10 100 3 (fun _ => .val 7) = .ok ((), cleared 4096 12
    (wrote 100 (H (List.replicate 64 7 ++ Aead.enc (List.replicate 32 7) (nonce 3) (List.replicate 64 7)
      (List.replicate 5 7))) (wrote 500 (Aead.enc (List.replicate 32 7) (nonce 3) (List.replicate 64 7)
      (List.replicate 5 7)) (fun _ => .val 7)))) :=
  C85_encrypt sevens (by simp) sevens (by simp) sevens (by simp) (by simp)
    sevens_space (by unfold Apart; simp) (by unfold Apart; simp) (by unfold Apart; simp) (by unfold Apart; simp)
    (by unfold Apart; simp)

/-- `Noise_XK_decrypt_and_hash`: the message and the new hash, or zeros in place of the message and the old hash. -/
theorem C85_decrypt {msgLen : UInt32} {msg cipher k h : ℕ} {nc : UInt64} {kb hv cb : Bytes}
    (hk : Holds m k kb) (hkl : kb.length = 32) (hh : Holds m h hv) (hhl : hv.length = 64)
    (hc : Holds m cipher cb) (hcl : cb.length = msgLen.toNat + 16) (hov : cb.length < 2 ^ 32)
    (hp : Space m msg msgLen.toNat) (apc : Apart msg msgLen.toNat cipher cb.length) (aph : Apart msg msgLen.toNat h 64)
    (ak : Apart sp 12 k 32) (ah : Apart sp 12 h 64) (ap : Apart sp 12 msg msgLen.toNat) (ac : Apart sp 12 cipher cb.length) :
    decryptAndHash sp msgLen msg cipher k h nc m =
      match Aead.dec kb (nonce nc) hv cb with
      | some pb => .ok (true, cleared sp 12 (wrote h (H (hv ++ cb)) (wrote msg pb m)))
      | none => .ok (false, cleared sp 12 (cleared msg msgLen.toNat m)) :=
  decryptAndHash_run hk hkl hh hhl hc hcl hov hp apc aph ak ah ap ac

example : ∃ r, decryptAndHash 4096 5 500 600 10 100 3 (fun _ => .val 7) = .ok r := by
  rw [C85_decrypt (cb := List.replicate 21 7) (kb := List.replicate 32 7) (hv := List.replicate 64 7)
    sevens (by simp) sevens (by simp) sevens (by simp) (by simp)
    sevens_space (by unfold Apart; simp) (by unfold Apart; simp) (by unfold Apart; simp) (by unfold Apart; simp)
    (by unfold Apart; simp) (by unfold Apart; simp)]
  split <;> exact ⟨_, rfl⟩

end

end

/-- There are ciphers as the class asks for. -/
example : Aead where
  enc _ _ _ p := p ++ List.replicate 16 0
  dec _ _ _ c := if 16 ≤ c.length then some (c.take (c.length - 16)) else none
  enc_length := by simp
  dec_length := by
    intro k n ad c p h
    split at h
    · simp only [Option.some.injEq] at h
      subst h
      simp only [List.length_take]
      omega
    · cases h

end Verif.Props
