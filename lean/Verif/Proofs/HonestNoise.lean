import Verif.Proofs.Noise
import Verif.Proofs.HonestWire

/-!
# The Noise sessions between parties that follow the protocol
-/

set_option linter.unusedSectionVars false

namespace Verif.TpDkg.Honest

open NoiseCrypto Noise

variable [Hashes] [NoiseCrypto]

/-- The messages, sessions and keys of a handshake. -/
structure Link where
  m1 : Bytes
  m2 : Bytes
  m3 : Bytes
  i1 : Session
  r2 : Session
  i2 : Session
  h : B64
  k1 : B32
  k2 : B32

/-- The hash with which both sides start. -/
def hash0 (pro : Bytes) (rpk : B32) : B64 := mixHash (mixHash h0 pro) rpk.toList

/-- `L` belongs to a handshake of the initiator with static key `si` and the responder with static key `sr`. -/
structure Link.Of (L : Link) (pro : Bytes) (pid : UInt32) (si ei sr er : B32) : Prop where
  l1 : L.m1.length = 48
  l2 : L.m2.length = 48
  l3 : L.m3.length = 64
  write1 : sessionWrite (pack 0 []) ⟨.initiator, pid, .handshake ⟨0, zero32, h0, hash0 pro (xbase sr), si, xbase si, ei,
    xbase ei, xbase sr, zero32⟩⟩ = (.success, some L.m1, L.i1)
  read1 : ∀ peers, ∃ r1, sessionRead peers ⟨.responder, 0, .handshake ⟨0, zero32, h0, hash0 pro (xbase sr), sr, xbase sr,
    er, xbase er, zero32, zero32⟩⟩ L.m1 = (.success, some ⟨.auth 0, []⟩, r1) ∧
    sessionWrite (pack 0 []) r1 = (.success, some L.m2, L.r2)
  i1_pid : L.i1.pid = pid
  read2 : ∀ peers, sessionRead peers L.i1 L.m2 = (.success, some ⟨.auth 2, []⟩, L.i2)
  write3 : sessionWrite (pack 5 []) L.i2 = (.success, some L.m3, ⟨.initiator, pid, .transport ⟨L.h, L.k1, 0, L.k2, 0⟩⟩)
  read3 : ∀ peers peer, peers.find? (fun p : Noise.Peer => p.s == xbase si) = some peer →
    sessionRead peers L.r2 L.m3 =
      (.success, some ⟨.auth 2, []⟩, ⟨.responder, peer.id, .transport ⟨L.h, L.k2, 0, L.k1, 0⟩⟩)

theorem Link.exists (pro : Bytes) (pid : UInt32) (si ei sr er : B32) : ∃ L : Link, L.Of pro pid si ei sr er := by
  obtain ⟨kes, hes⟩ := Option.isSome_iff_exists.1 (dh_base ei sr)
  obtain ⟨kee, hee⟩ := Option.isSome_iff_exists.1 (dh_base er ei)
  obtain ⟨kse, hse⟩ := Option.isSome_iff_exists.1 (dh_base si er)
  have hes' : dh sr (xbase ei) = some kes := by rw [← dh_comm]; exact hes
  have hee' : dh ei (xbase er) = some kee := by rw [← dh_comm]; exact hee
  have hse' : dh er (xbase si) = some kse := by rw [← dh_comm]; exact hse
  let hs := hash0 pro (xbase sr)
  let h1 := mixHash hs (xbase ei).toList
  let x1 := mixK kes h0
  let c1 := aeadEnc x1.2 0 h1.toList []
  let h2 := mixHash h1 c1
  let h3 := mixHash h2 (xbase er).toList
  let x2 := mixK kee x1.1
  let c2 := aeadEnc x2.2 0 h3.toList []
  let h4 := mixHash h3 c2
  let c3 := aeadEnc x2.2 1 h4.toList (xbase si).toList
  let h5 := mixHash h4 c3
  let x3 := mixK kse x2.1
  let c4 := aeadEnc x3.2 0 h5.toList []
  let h6 := mixHash h5 c4
  let k1 := key32 (kdf x3.1 []).1
  let k2 := key32 (kdf x3.1 []).2
  let m1 := (xbase ei).toList ++ c1
  let m2 := (xbase er).toList ++ c2
  let m3 := c3 ++ c4
  have ln1 : m1.length = 48 := by simp [m1, c1, enc_length]
  have ln2 : m2.length = 48 := by simp [m2, c2, enc_length]
  have ln3 : m3.length = 64 := by simp [m3, c3, c4, enc_length]
  have t1 : m1.take 32 = (xbase ei).toList := by simp [m1]
  have d1 : m1.drop 32 = c1 := by simp [m1]
  have t2 : m2.take 32 = (xbase er).toList := by simp [m2]
  have d2 : m2.drop 32 = c2 := by simp [m2]
  have c3l : c3.length = 48 := by simp [c3, enc_length]
  have t3 : m3.take 48 = c3 := by simp [m3, ← c3l]
  have d3 : m3.drop 48 = c4 := by simp [m3, ← c3l]
  refine ⟨⟨m1, m2, m3, ⟨.initiator, pid, .handshake ⟨1, x1.2, x1.1, h2, si, xbase si, ei, xbase ei, xbase sr, zero32⟩⟩,
    ⟨.responder, 0, .handshake ⟨2, x2.2, x2.1, h4, sr, xbase sr, er, xbase er, zero32, xbase ei⟩⟩,
    ⟨.initiator, pid, .handshake ⟨2, x2.2, x2.1, h4, si, xbase si, ei, xbase ei, xbase sr, xbase er⟩⟩, h6, k1, k2⟩,
    ln1, ln2, ln3, ?_, ?_, rfl, ?_, ?_, ?_⟩
  · simp only [sessionWrite, nextLen, handshakeWrite, initWrite0, mixDh_some hes]
    simp [secOk, pack, m1, c1, h1, h2, x1, hs]
  · intro peers
    refine ⟨⟨.responder, 0, .handshake ⟨1, x1.2, x1.1, h2, sr, xbase sr, er, xbase er, zero32, xbase ei⟩⟩, ?_, ?_⟩
    · simp only [sessionRead, readTurn, payloadLen, handshakeRead, respRead0, t1, toB32_toList, mixDh_some hes', d1, ln1,
        decryptAndHash]
      simp [c1, dec_enc, h1, h2, x1, hs]
    · simp only [sessionWrite, nextLen, handshakeWrite, respWrite1, mixDh_some hee]
      simp [secOk, pack, m2, c2, h3, h4, x2]
  · intro peers
    simp only [sessionRead, readTurn, payloadLen, handshakeRead, initRead1, t2, toB32_toList, mixDh_some hee', d2, ln2,
      decryptAndHash]
    simp [c2, dec_enc, h3, h4, x2]
  · simp only [sessionWrite, nextLen, handshakeWrite, initWrite2, mixDh_some hse]
    simp [secOk, pack, m3, c3, c4, h5, h6, x3, split, k1, k2]
  · intro peers peer hpeer
    simp only [sessionRead, readTurn, payloadLen, handshakeRead, respRead2, t3, d3, ln3, decryptAndHash]
    simp [c3, c4, dec_enc, h5, h6, x3, split, toB32_toList, hpeer, mixDh_some hse', k1, k2]

/-! ### Helpers of the peers -/

/-- The public Noise key of peer `j`. -/
def npk (S : Setup) (j : ℕ) : B32 := xbase (S.env j).rnd.noiseSk

/-- The session of peer `i` as initiator with peer `j`. -/
noncomputable def link (S : Setup) (i j : ℕ) : Link :=
  Classical.choose (Link.exists Peer.prologue (UInt32.ofNat (j + 1)) (S.env i).rnd.noiseSk ((S.env i).rnd.einit j)
    (S.env j).rnd.noiseSk ((S.env j).rnd.eresp i))

theorem link_of (S : Setup) (i j : ℕ) : (link S i j).Of Peer.prologue (UInt32.ofNat (j + 1)) (S.env i).rnd.noiseSk
    ((S.env i).rnd.einit j) (S.env j).rnd.noiseSk ((S.env j).rnd.eresp i) := by
  unfold link
  exact Classical.choose_spec (Link.exists _ _ _ _ _ _)

/-- The device of peer `i` knows the first `m` peers and has opened `k` sessions. -/
structure DevAt (S : Setup) (i m k : ℕ) (dv : Device) : Prop where
  spriv : dv.spriv = (S.env i).rnd.noiseSk
  spub : dv.spub = npk S i
  prologue : dv.prologue = Peer.prologue
  peers : dv.peers = (List.range m).reverse.map fun j => ⟨UInt32.ofNat (j + 1), npk S j⟩
  peersCounter : dv.peersCounter = UInt32.ofNat (m + 1)
  statesCounter : dv.statesCounter = UInt32.ofNat (k + 1)

theorem DevAt.create (S : Setup) (i : ℕ) : DevAt S i 0 0 (deviceCreate Peer.prologue (S.env i).rnd.noiseSk) :=
  ⟨rfl, rfl, rfl, rfl, rfl, rfl⟩

theorem ofNat32_ne {a b : ℕ} (ha : a < 2 ^ 32) (hb : b < 2 ^ 32) (h : a ≠ b) : UInt32.ofNat a ≠ UInt32.ofNat b := by
  intro e
  have := congrArg UInt32.toNat e
  rw [UInt32.toNat_ofNat', UInt32.toNat_ofNat', Nat.mod_eq_of_lt ha, Nat.mod_eq_of_lt hb] at this
  exact h this

section
variable {S : Setup} {i m k : ℕ} {dv : Device}

theorem DevAt.find_id (D : DevAt S i m k dv) (hm : m < 1000) {j : ℕ} (hj : j < m) :
    (dv.peers.find? fun p => p.id == UInt32.ofNat (j + 1)) = some ⟨UInt32.ofNat (j + 1), npk S j⟩ := by
  rw [D.peers]
  obtain ⟨x, hx⟩ := Option.isSome_iff_exists.1 (List.find?_isSome.2
    ⟨(⟨UInt32.ofNat (j + 1), npk S j⟩ : Noise.Peer), List.mem_map.2 ⟨j, by simpa using hj, rfl⟩, by simp⟩ :
      ((((List.range m).reverse.map fun j => (⟨UInt32.ofNat (j + 1), npk S j⟩ : Noise.Peer)).find?
        fun p => p.id == UInt32.ofNat (j + 1)).isSome = true))
  rw [hx]
  have h1 := List.find?_some hx
  obtain ⟨a, ha, rfl⟩ := List.mem_map.1 (List.mem_of_find?_eq_some hx)
  have ha : a < m := by simpa using ha
  dsimp only at h1
  have : a = j := by
    by_contra hne
    exact ofNat32_ne (a := a + 1) (b := j + 1) (by omega) (by omega) (by omega) (by simpa using h1)
  rw [this]

theorem DevAt.find_key (D : DevAt S i m k dv) (hk : ∀ a < m, ∀ b < m, npk S a = npk S b → a = b) {j : ℕ} (hj : j < m) :
    (dv.peers.find? fun p => p.s == npk S j) = some ⟨UInt32.ofNat (j + 1), npk S j⟩ := by
  rw [D.peers]
  obtain ⟨x, hx⟩ := Option.isSome_iff_exists.1 (List.find?_isSome.2
    ⟨(⟨UInt32.ofNat (j + 1), npk S j⟩ : Noise.Peer), List.mem_map.2 ⟨j, by simpa using hj, rfl⟩, by simp⟩ :
      ((((List.range m).reverse.map fun j => (⟨UInt32.ofNat (j + 1), npk S j⟩ : Noise.Peer)).find?
        fun p => p.s == npk S j).isSome = true))
  rw [hx]
  have h1 := List.find?_some hx
  obtain ⟨a, ha, rfl⟩ := List.mem_map.1 (List.mem_of_find?_eq_some hx)
  have ha : a < m := by simpa using ha
  dsimp only at h1
  have : a = j := hk a ha j hj (by simpa using h1)
  rw [this]

theorem ofNat32_ne_zero {a : ℕ} (h : a < 2000) : UInt32.ofNat (a + 1) ≠ 0 :=
  ofNat32_ne (b := 0) (by omega) (by norm_num) (by omega)

theorem ofNat32_succ (a : ℕ) : UInt32.ofNat a + 1 = UInt32.ofNat (a + 1) := (UInt32.ofNat_add a 1).symm

theorem DevAt.init (D : DevAt S i m k dv) (hm : m < 998) (hk : k < 998)
    (hkeys : ∀ a < m + 1, ∀ b < m + 1, npk S a = npk S b → a = b) (slot : Ptr Session) :
    ∃ dv', initNoise dv slot (npk S m) ((S.env i).rnd.einit m) = (0, dv', .live (link S i m).i1, some (link S i m).m1) ∧
      DevAt S i (m + 1) (k + 1) dv' := by
  have L := link_of S i m
  have hfind : (dv.peers.find? fun p => p.s == npk S m) = none := by
    rw [D.peers, List.find?_eq_none]
    intro x hx
    obtain ⟨a, ha, rfl⟩ := List.mem_map.1 hx
    have ha : a < m := by simpa using ha
    dsimp only
    intro h
    have := hkeys a (by omega) m (by omega) (by simpa using h)
    omega
  have hadd : deviceAddPeer dv (npk S m) = (some (UInt32.ofNat (m + 1)), { dv with
      peers := ⟨UInt32.ofNat (m + 1), npk S m⟩ :: dv.peers
      peersCounter := UInt32.ofNat (m + 2) }) := by
    unfold deviceAddPeer
    rw [hfind, D.peersCounter, ofNat32_succ, if_neg]
    rintro (h | h)
    · exact ofNat32_ne (b := 4294967295) (by omega) (by norm_num) (by omega) h
    · cases h
  have D' : DevAt S i (m + 1) k { dv with
      peers := ⟨UInt32.ofNat (m + 1), npk S m⟩ :: dv.peers
      peersCounter := UInt32.ofNat (m + 2) } := by
    refine ⟨D.spriv, D.spub, D.prologue, ?_, rfl, D.statesCounter⟩
    rw [List.range_succ, List.reverse_append, List.map_append, D.peers]
    rfl
  have hcr : createInitiator { dv with
      peers := ⟨UInt32.ofNat (m + 1), npk S m⟩ :: dv.peers
      peersCounter := UInt32.ofNat (m + 2) } (UInt32.ofNat (m + 1)) ((S.env i).rnd.einit m) =
      (some ⟨.initiator, UInt32.ofNat (m + 1), .handshake ⟨0, zero32, h0, hash0 Peer.prologue (npk S m),
        (S.env i).rnd.noiseSk, npk S i, (S.env i).rnd.einit m, xbase ((S.env i).rnd.einit m), npk S m, zero32⟩⟩, { dv with
      peers := ⟨UInt32.ofNat (m + 1), npk S m⟩ :: dv.peers
      peersCounter := UInt32.ofNat (m + 2)
      statesCounter := UInt32.ofNat (k + 2) }) := by
    unfold createInitiator
    rw [if_neg (by
      rw [D'.statesCounter]
      exact ofNat32_ne (b := 4294967295) (by omega) (by norm_num) (by omega)),
      if_neg (ofNat32_ne_zero (by omega)), D'.find_id (by omega) (Nat.lt_succ_self m)]
    dsimp only
    rw [D.statesCounter, ofNat32_succ, D.spriv, D.spub, D.prologue]
    rfl
  refine ⟨{ dv with
      peers := ⟨UInt32.ofNat (m + 1), npk S m⟩ :: dv.peers
      peersCounter := UInt32.ofNat (m + 2)
      statesCounter := UInt32.ofNat (k + 2) }, ?_, ⟨D.spriv, D.spub, D.prologue, D'.peers, rfl, rfl⟩⟩
  unfold initNoise
  rw [hadd]
  dsimp only
  rw [hcr]
  dsimp only
  have hw := L.write1
  unfold npk
  rw [hw]
  simp [RCode.isSuccess, L.l1]

theorem DevAt.respond (D : DevAt S i m k dv) (hk : k < 998) (j : ℕ) :
    ∃ dv', respondNoise dv (link S j i).m1 ((S.env i).rnd.eresp j) =
      (0, dv', .live (link S j i).r2, some (link S j i).m2) ∧ DevAt S i m (k + 1) dv' := by
  have L := link_of S j i
  have hcr : createResponder dv ((S.env i).rnd.eresp j) = (some ⟨.responder, 0, .handshake ⟨0, zero32, h0,
      hash0 Peer.prologue (npk S i), (S.env i).rnd.noiseSk, npk S i, (S.env i).rnd.eresp j,
      xbase ((S.env i).rnd.eresp j), zero32, zero32⟩⟩, { dv with statesCounter := UInt32.ofNat (k + 2) }) := by
    unfold createResponder
    rw [if_neg (by
      rw [D.statesCounter]
      exact ofNat32_ne (b := 4294967295) (by omega) (by norm_num) (by omega)), D.statesCounter, ofNat32_succ, D.spriv,
      D.spub, D.prologue]
    rfl
  refine ⟨{ dv with statesCounter := UInt32.ofNat (k + 2) }, ?_, ⟨D.spriv, D.spub, D.prologue, D.peers, D.peersCounter, rfl⟩⟩
  obtain ⟨r1, h1, h2⟩ := L.read1 dv.peers
  unfold respondNoise
  rw [hcr]
  dsimp only
  unfold npk
  rw [h1]
  simp only [RCode.isSuccess, Option.bind_some, unpack]
  simp [h2, L.l2, RCode.isSuccess]

theorem DevAt.finish (D : DevAt S i m k dv) (hm : m < 998) (log : Bool) {j : ℕ} (hj : j < m) :
    finishNoise log dv (.live (link S i j).i1) (link S i j).m2 = .ok (0, .live (link S i j).i2) := by
  have L := link_of S i j
  unfold finishNoise
  simp only [Ptr.deref, C.ok_bind]
  rw [if_neg, L.read2]
  · simp [RCode.isSuccess, unpack]
  · rintro ⟨_, h⟩
    rw [L.i1_pid] at h
    unfold lookupPeer at h
    rw [if_neg (ofNat32_ne_zero (by omega)), D.find_id (by omega) hj] at h
    cases h

/-- The session of peer `i` as initiator with peer `j` after the handshake. -/
noncomputable def i3 (S : Setup) (i j : ℕ) (a : UInt64) : Session :=
  ⟨.initiator, UInt32.ofNat (j + 1), .transport ⟨(link S i j).h, (link S i j).k1, a, (link S i j).k2, 0⟩⟩

/-- The encrypted share. -/
noncomputable def box (S : Setup) (i j : ℕ) (p : Bytes) : Bytes := aeadEnc (link S i j).k1 0 [] p

theorem encrypt_first (S : Setup) (i j : ℕ) :
    encryptNoise (.live (link S i j).i2) [] 64 = .ok (0, .live (i3 S i j 0), some (link S i j).m3) := by
  have L := link_of S i j
  unfold encryptNoise
  simp [Ptr.deref, L.write3, RCode.isSuccess, L.l3, i3]

theorem encrypt_second (S : Setup) (i j : ℕ) {p : Bytes} (hp : p.length = 33) :
    encryptNoise (.live (i3 S i j 0)) p 49 = .ok (0, .live (i3 S i j 1), some (box S i j p)) := by
  unfold encryptNoise i3 box
  simp only [Ptr.deref, C.ok_bind]
  rw [if_neg (by omega)]
  simp [sessionWrite, pack, hp, secOk, transportWrite, RCode.isSuccess, enc_length]

theorem keyAt_out (S : Setup) (i j : ℕ) (a : UInt64) : keyAt (.live (i3 S i j a)) = .ok (link S i j).k1 := rfl

/-- The session of peer `i` as responder of peer `j` after the handshake. -/
noncomputable def r3 (S : Setup) (j i : ℕ) (a : UInt64) : Session :=
  ⟨.responder, UInt32.ofNat (j + 1), .transport ⟨(link S j i).h, (link S j i).k2, 0, (link S j i).k1, a⟩⟩

theorem DevAt.decrypt_first (D : DevAt S i m k dv) (hkeys : ∀ a < m, ∀ b < m, npk S a = npk S b → a = b) {j : ℕ}
    (hj : j < m) :
    decryptNoise dv (.live (link S j i).r2) (link S j i).m3 0 = .ok (0, .live (r3 S j i 0), some []) := by
  have L := link_of S j i
  unfold decryptNoise
  simp only [Ptr.deref, C.ok_bind]
  rw [if_neg (by rw [L.l3]; omega), L.read3 _ _ (D.find_key hkeys hj)]
  simp [RCode.isSuccess, unpack, r3]

theorem keyAt_in (S : Setup) (j i : ℕ) (a : UInt64) : keyAt (.live (r3 S j i a)) = .ok (link S j i).k1 := rfl

theorem box_length (S : Setup) (i j : ℕ) {p : Bytes} (hp : p.length = 33) : (box S i j p).length = 49 := by
  unfold box; rw [enc_length, hp]

theorem decrypt_second (S : Setup) (dv : Device) (j i : ℕ) {p : Bytes} (hp : p.length = 33) :
    decryptNoise dv (.live (r3 S j i 0)) (box S j i p) 33 = .ok (0, .live (r3 S j i 1), some p) := by
  unfold decryptNoise
  simp only [Ptr.deref, C.ok_bind]
  rw [if_neg (by rw [box_length _ _ _ hp]; omega)]
  have := read_transport_ok dv.peers .responder (UInt32.ofNat (j + 1))
    ⟨(link S j i).h, (link S j i).k2, 0, (link S j i).k1, 0⟩ p (by omega)
    (show (0 : UInt64).toNat < 2 ^ 64 - 1 by decide)
  unfold r3 box
  dsimp only at this
  rw [this]
  simp [RCode.isSuccess, unpack, hp]

end

end Verif.TpDkg.Honest
