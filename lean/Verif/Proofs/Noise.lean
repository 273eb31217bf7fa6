import Verif.Spec.Noise
import Verif.Proofs.Toy

/-!
# Lemmas on the Noise sessions
-/

set_option linter.unusedSectionVars false

namespace Verif.Noise

open NoiseCrypto Spec.NoiseXK

section
variable [Hashes] [NoiseCrypto]

theorem xor36_5c (x : UInt8) : x ^^^ 0x36 ^^^ (0x36 ^^^ 0x5c) = x ^^^ 0x5c := by
  rw [UInt8.xor_assoc, ← UInt8.xor_assoc 0x36, UInt8.xor_self, UInt8.zero_xor]

theorem hmac_eq (key data : Bytes) (h : key.length ≤ 128) : (hmac key data).toList = Spec.NoiseXK.hmac key data := by
  unfold hmac Spec.NoiseXK.hmac Spec.NoiseXK.hash xorKey
  simp only [h, if_true, List.map_map]
  congr 3
  apply List.map_congr_left
  intro a _
  exact xor36_5c a

theorem kdf_eq (ck : B64) (key : Bytes) :
    ((kdf ck key).1.toList, (kdf ck key).2.toList) = Spec.NoiseXK.hkdf ck.toList key := by
  have h64 : ∀ v : B64, v.toList.length ≤ 128 := fun v => by simp
  unfold kdf Spec.NoiseXK.hkdf
  have h64' : ∀ k m : Bytes, (Spec.NoiseXK.hmac k m).length ≤ 128 := fun k m => by
    simp [Spec.NoiseXK.hmac, Spec.NoiseXK.hash]
  simp only [hmac_eq _ _ (h64 _), hmac_eq _ _ (h64' _ _)]

theorem mixHash_eq (h : B64) (x : Bytes) : (mixHash h x).toList = Spec.NoiseXK.hash (h.toList ++ x) := rfl

theorem h0_eq : h0.toList = name ++ List.replicate (64 - name.length) 0 := by decide

/-- What `mixDh` computes when the Diffie-Hellman function gives `k`. -/
def mixK (k : B32) (ck : B64) : B64 × B32 := ((kdf ck k.toList).1, key32 (kdf ck k.toList).2)

theorem mixDh_some {sec pub k : B32} (h : dh sec pub = some k) (ck : B64) : mixDh sec pub ck = some (mixK k ck) := by
  simp [mixDh, h, mixK]

theorem mixDh_none {sec pub : B32} (h : dh sec pub = none) (ck : B64) : mixDh sec pub ck = none := by
  simp [mixDh, h]

/-- The three-message exchange, all in one: from initial sessions with the same hash to transport. -/
theorem handshake_run {hs : B64} {si ei sr er : B32} {pidI : UInt32} {peers peersI : List Peer} {peer : Peer}
    (hpeer : peers.find? (fun p => p.s == xbase si) = some peer)
    (em1 em2 em3 : Encap) (l1 : em1.msg.length ≤ 4294967215) (l2 : em2.msg.length ≤ 4294967215)
    (l3 : em3.msg.length ≤ 4294967215) (s1 : secOk 2 em1 = true) (s2 : secOk 1 em2 = true) (s3 : secOk 5 em3 = true)
    {kes kee kse : B32} (hes : dh ei (xbase sr) = some kes) (hee : dh er (xbase ei) = some kee)
    (hse : dh si (xbase er) = some kse)
    (zi zr r0 : B32) :
    let I : Session := ⟨.initiator, pidI, .handshake ⟨0, zi, h0, hs, si, xbase si, ei, xbase ei, xbase sr, zi⟩⟩
    let R : Session := ⟨.responder, 0, .handshake ⟨0, zr, h0, hs, sr, xbase sr, er, xbase er, r0, r0⟩⟩
    let h1 := mixHash hs (xbase ei).toList
    let x1 := mixK kes h0
    let c1 := aeadEnc x1.2 0 h1.toList em1.msg
    let h2 := mixHash h1 c1
    let h3 := mixHash h2 (xbase er).toList
    let x2 := mixK kee x1.1
    let c2 := aeadEnc x2.2 0 h3.toList em2.msg
    let h4 := mixHash h3 c2
    let c3 := aeadEnc x2.2 1 h4.toList (xbase si).toList
    let h5 := mixHash h4 c3
    let x3 := mixK kse x2.1
    let c4 := aeadEnc x3.2 0 h5.toList em3.msg
    let h6 := mixHash h5 c4
    let k1 := key32 (kdf x3.1 []).1
    let k2 := key32 (kdf x3.1 []).2
    let m1 := (xbase ei).toList ++ c1
    let m2 := (xbase er).toList ++ c2
    let m3 := c3 ++ c4
    ∃ I1 R1 R2 I2,
      sessionWrite em1 I = (.success, some m1, I1) ∧
      sessionRead peers R m1 = (.success, some ⟨.auth 0, em1.msg⟩, R1) ∧
      sessionWrite em2 R1 = (.success, some m2, R2) ∧
      sessionRead peersI I1 m2 = (.success, some ⟨.auth 2, em2.msg⟩, I2) ∧
      sessionWrite em3 I2 = (.success, some m3, ⟨.initiator, pidI, .transport ⟨h6, k1, 0, k2, 0⟩⟩) ∧
      sessionRead peers R2 m3 = (.success, some ⟨.auth 2, em3.msg⟩, ⟨.responder, peer.id, .transport ⟨h6, k2, 0, k1, 0⟩⟩)
        := by
  have hes' : dh sr (xbase ei) = some kes := by rw [← dh_comm]; exact hes
  have hee' : dh ei (xbase er) = some kee := by rw [← dh_comm]; exact hee
  have hse' : dh er (xbase si) = some kse := by rw [← dh_comm]; exact hse
  intro I R h1 x1 c1 h2 h3 x2 c2 h4 c3 h5 x3 c4 h6 k1 k2 m1 m2 m3
  have ln1 : m1.length = 48 + em1.msg.length := by simp [m1, c1, enc_length]; omega
  have ln2 : m2.length = 48 + em2.msg.length := by simp [m2, c2, enc_length]; omega
  have ln3 : m3.length = 64 + em3.msg.length := by simp [m3, c3, c4, enc_length]; omega
  have t1 : m1.take 32 = (xbase ei).toList := by simp [m1]
  have d1 : m1.drop 32 = c1 := by simp [m1]
  have t2 : m2.take 32 = (xbase er).toList := by simp [m2]
  have d2 : m2.drop 32 = c2 := by simp [m2]
  have c3l : c3.length = 48 := by simp [c3, enc_length]
  have t3 : m3.take 48 = c3 := by simp [m3, ← c3l]
  have d3 : m3.drop 48 = c4 := by simp [m3, ← c3l]
  refine ⟨⟨.initiator, pidI, .handshake ⟨1, x1.2, x1.1, h2, si, xbase si, ei, xbase ei, xbase sr, zi⟩⟩,
    ⟨.responder, 0, .handshake ⟨1, x1.2, x1.1, h2, sr, xbase sr, er, xbase er, r0, xbase ei⟩⟩,
    ⟨.responder, 0, .handshake ⟨2, x2.2, x2.1, h4, sr, xbase sr, er, xbase er, r0, xbase ei⟩⟩,
    ⟨.initiator, pidI, .handshake ⟨2, x2.2, x2.1, h4, si, xbase si, ei, xbase ei, xbase sr, xbase er⟩⟩,
    ?_, ?_, ?_, ?_, ?_, ?_⟩
  · simp only [sessionWrite, I, nextLen, l1, handshakeWrite, initWrite0, mixDh_some hes]
    simp [s1, Nat.add_comm, m1, c1, h1, h2, x1]
  · simp only [sessionRead, R, readTurn, payloadLen, handshakeRead, respRead0, t1, toB32_toList, mixDh_some hes', d1, ln1,
      decryptAndHash]
    simp [l1, c1, dec_enc, h1, h2, x1]
  · simp only [sessionWrite, nextLen, l2, handshakeWrite, respWrite1, mixDh_some hee]
    simp [s2, Nat.add_comm, m2, c2, h3, h4, x2]
  · simp only [sessionRead, readTurn, payloadLen, handshakeRead, initRead1, t2, toB32_toList, mixDh_some hee', d2, ln2,
      decryptAndHash]
    simp [l2, c2, dec_enc, h3, h4, x2]
  · simp only [sessionWrite, nextLen, l3, handshakeWrite, initWrite2, mixDh_some hse]
    simp [s3, Nat.add_comm, m3, c3, c4, h5, h6, x3, split, k1, k2]
  · simp only [sessionRead, readTurn, payloadLen, handshakeRead, respRead2, t3, d3, ln3, decryptAndHash]
    simp [l3, c3, c4, dec_enc, h5, h6, x3, split, toB32_toList, hpeer, mixDh_some hse', k1, k2]

/-! ### Transport -/

theorem write_transport (em : Encap) (r : Role) (pid : UInt32) (t : TS) :
    let sn : Session := ⟨r, pid, .transport t⟩
    (sessionWrite em sn = (.success, some (aeadEnc t.sendKey t.sendNonce [] em.msg),
        ⟨r, pid, .transport { t with sendNonce := t.sendNonce + 1 }⟩) ∧ em.msg.length ≤ 4294967279 ∧
        t.sendNonce.toNat < 2 ^ 64 - 1) ∨
      ∃ e, sessionWrite em sn = (.error e, none, sn) := by
  intro sn
  by_cases h1 : em.msg.length ≤ 4294967279
  · by_cases h2 : secOk 5 em = true
    · by_cases h3 : t.sendNonce ≥ 18446744073709551615
      · right; exact ⟨.saturatedNonce, by simp [sessionWrite, sn, h1, h2, transportWrite, h3]⟩
      · left
        refine ⟨by simp [sessionWrite, sn, h1, h2, transportWrite, h3], h1, ?_⟩
        have : t.sendNonce < 18446744073709551615 := UInt64.not_le.mp h3
        have := UInt64.lt_iff_toNat_lt.mp this
        exact this
    · right; exact ⟨.securityLevel, by simp [sessionWrite, sn, h1, h2]⟩
  · right; exact ⟨.inputSize, by simp [sessionWrite, sn, h1]⟩

theorem read_transport_keeps (peers : List Peer) (input : Bytes) (r : Role) (pid : UInt32) (t : TS) :
    ∃ t', (sessionRead peers ⟨r, pid, .transport t⟩ input).2.2 = ⟨r, pid, .transport t'⟩ ∧ t'.sendKey = t.sendKey ∧
      t'.sendNonce = t.sendNonce := by
  unfold sessionRead transportRead
  dsimp only
  split
  · split
    · rename_i h
      split at h
      · simp at h
      · split at h
        · simp at h
        · split at h
          · simp at h
          · simp only [Prod.mk.injEq, Except.ok.injEq] at h
            obtain ⟨_, rfl⟩ := h
            exact ⟨_, rfl, rfl, rfl⟩
    · rename_i h
      split at h
      · simp only [Prod.mk.injEq] at h; obtain ⟨_, rfl⟩ := h; exact ⟨_, rfl, rfl, rfl⟩
      · split at h
        · simp only [Prod.mk.injEq] at h; obtain ⟨_, rfl⟩ := h; exact ⟨_, rfl, rfl, rfl⟩
        · split at h
          · simp only [Prod.mk.injEq] at h; obtain ⟨_, rfl⟩ := h; exact ⟨_, rfl, rfl, rfl⟩
          · simp at h
  · exact ⟨_, rfl, rfl, rfl⟩

theorem read_transport_ok (peers : List Peer) (r : Role) (pid : UInt32) (t : TS) (p : Bytes)
    (hp : p.length ≤ 4294967279) (hn : t.recvNonce.toNat < 2 ^ 64 - 1) :
    sessionRead peers ⟨r, pid, .transport t⟩ (aeadEnc t.recvKey t.recvNonce [] p) =
      (.success, some ⟨.auth 2, p⟩, ⟨r, pid, .transport { t with recvNonce := t.recvNonce + 1 }⟩) := by
  have h3 : ¬ t.recvNonce ≥ 18446744073709551615 := by
    apply UInt64.not_le.mpr
    rw [UInt64.lt_iff_toNat_lt]
    exact hn
  simp [sessionRead, enc_length, transportRead, hp, h3, dec_enc]

/-- Messages `ps` encrypted under `k` with counters from `n`. -/
def sealed (k : B32) : UInt64 → List Bytes → List Bytes
  | _, [] => []
  | n, p :: ps => aeadEnc k n [] p :: sealed k (n + 1) ps

theorem sealed_length (k : B32) (n : UInt64) (ps : List Bytes) :
    (sealed k n ps).map List.length = ps.map fun p => p.length + 16 := by
  induction ps generalizing n with
  | nil => rfl
  | cons p ps ih => simp [sealed, enc_length, ih]

theorem sealed_append (k : B32) (n : UInt64) (ps : List Bytes) (p : Bytes) :
    sealed k n (ps ++ [p]) = sealed k n ps ++ [aeadEnc k (n + UInt64.ofNat ps.length) [] p] := by
  induction ps generalizing n with
  | nil => simp [sealed]
  | cons q qs ih =>
    simp only [List.cons_append, sealed, ih, List.length_cons, List.cons.injEq, true_and]
    congr 3
    rw [UInt64.add_assoc]
    congr 1
    rw [show qs.length + 1 = 1 + qs.length from Nat.add_comm _ _, UInt64.ofNat_add]
    rfl

/-- Invariant of one direction: keys match, and the wire holds the encryptions of what is sent but not yet delivered. -/
def Chan (ta tb : TS) (wire sent got : List Bytes) : Prop :=
  ∃ pend : List Bytes, ta.sendKey = tb.recvKey ∧ ta.sendNonce.toNat = tb.recvNonce.toNat + pend.length ∧
    sent = got ++ pend ∧ wire = sealed tb.recvKey tb.recvNonce pend ∧ ∀ p ∈ pend, p.length ≤ 4294967279

/-- Both directions -/
def Inv (net : Net) : Prop :=
  ∃ (t : Role → TS) (pid : Role → UInt32),
    (∀ r, net.sess r = ⟨r, pid r, .transport (t r)⟩) ∧
    (∀ r, Chan (t r) (t (other r)) (net.wire r) (net.sent r) (net.got r)) ∧ net.refused = false

theorem other_ne (r : Role) : other r ≠ r := by cases r <;> simp [other]
theorem other_other (r : Role) : other (other r) = r := by cases r <;> rfl
theorem eq_other {r r' : Role} (h : r' ≠ r) : r' = other r := by revert h; cases r <;> cases r' <;> simp [other]

theorem toNat_succ {n : UInt64} (h : n.toNat < 2 ^ 64 - 1) : (n + 1).toNat = n.toNat + 1 := by
  rw [UInt64.toNat_add]
  show (n.toNat + 1) % 2 ^ 64 = _
  exact Nat.mod_eq_of_lt (by omega)

theorem inv_step {peers : List Peer} {net : Net} (ev : Ev) (h : Inv net) : Inv (net.step peers ev) := by
  obtain ⟨t, pid, hs, hc, hr⟩ := h
  cases ev with
  | send r em =>
    rcases write_transport em r (pid r) (t r) with ⟨hw, hl, hn⟩ | ⟨e, hw⟩
    · rw [← hs r] at hw
      simp only [Net.step, hw]
      refine ⟨Function.update t r { t r with sendNonce := (t r).sendNonce + 1 }, pid, ?_, ?_, hr⟩
      · intro r'
        by_cases hr' : r' = r
        · subst hr'; simp
        · simp [hr', hs r']
      · intro r'
        by_cases hr' : r' = r
        · subst hr'
          obtain ⟨pend, h1, h2, h3, h4, h5⟩ := hc r'
          simp only [Function.update_self, Function.update_of_ne (other_ne r')]
          refine ⟨pend ++ [em.msg], h1, ?_, ?_, ?_, ?_⟩
          · rw [toNat_succ hn, h2, List.length_append]; rfl
          · rw [h3, List.append_assoc]
          · rw [h4, sealed_append, ← h1]
            congr 3
            apply UInt64.toNat_inj.mp
            rw [h2, UInt64.toNat_add, UInt64.toNat_ofNat']
            have := (t (other r')).recvNonce.toNat_lt
            rw [Nat.mod_eq_of_lt (a := pend.length) (by omega), Nat.mod_eq_of_lt (by omega)]
          · intro p hp
            rcases List.mem_append.mp hp with hp | hp
            · exact h5 p hp
            · simp at hp; subst hp; exact hl
        · have := eq_other hr'
          subst this
          obtain ⟨pend, h1, h2, h3, h4, h5⟩ := hc (other r)
          simp only [Function.update_of_ne hr', other_other, Function.update_self] at h1 h2 h4 ⊢
          exact ⟨pend, h1, h2, h3, h4, h5⟩
    · rw [← hs r] at hw
      simp only [Net.step, hw]
      have : Function.update net.sess r (net.sess r) = net.sess := Function.update_eq_self _ _
      rw [this]
      exact ⟨t, pid, hs, hc, hr⟩
  | deliver r =>
    obtain ⟨pend, h1, h2, h3, h4, h5⟩ := hc r
    cases pend with
    | nil =>
      simp only [sealed] at h4
      simp only [Net.step, h4]
      exact ⟨t, pid, hs, hc, hr⟩
    | cons p ps =>
      simp only [sealed] at h4
      have hlt := (t r).sendNonce.toNat_lt
      simp only [List.length_cons] at h2
      have hn : (t (other r)).recvNonce.toNat < 2 ^ 64 - 1 := by omega
      have hrd := read_transport_ok peers (other r) (pid (other r)) (t (other r)) p
        (h5 p (List.mem_cons_self ..)) hn
      rw [← hs (other r)] at hrd
      simp only [Net.step, h4, hrd]
      refine ⟨Function.update t (other r) { t (other r) with recvNonce := (t (other r)).recvNonce + 1 }, pid, ?_, ?_, hr⟩
      · intro r'
        by_cases hr' : r' = other r
        · subst hr'; simp
        · simp [hr', hs r']
      · intro r'
        by_cases hr' : r' = r
        · subst hr'
          simp only [Function.update_self, Function.update_of_ne (other_ne r').symm]
          refine ⟨ps, h1, ?_, ?_, rfl, fun q hq => h5 q (List.mem_cons_of_mem _ hq)⟩
          · rw [toNat_succ hn]; omega
          · rw [h3, List.append_assoc]; rfl
        · have := eq_other hr'
          subst this
          obtain ⟨pend, g1, g2, g3, g4, g5⟩ := hc (other r)
          rw [other_other] at g1 g2 g4
          simp only [other_other, Function.update_self, Function.update_of_ne (other_ne r).symm, Function.update_of_ne hr']
          exact ⟨pend, g1, g2, g3, g4, g5⟩

theorem inv_run {peers : List Peer} (evs : List Ev) {net : Net} (h : Inv net) : Inv (net.run peers evs) := by
  induction evs generalizing net with
  | nil => exact h
  | cons e es ih => exact ih (inv_step e h)

/-- A session in handshake state stays there or enters transport with both counters zero. -/
def Fresh (sn : Session) : Prop :=
  match sn.st with
  | .handshake _ => True
  | .transport t => t.sendNonce = 0

theorem handshakeWrite_fresh (r : Role) (pid : UInt32) (s : HS) (m : Bytes) (l : ℕ) :
    Fresh (handshakeWrite ⟨r, pid, .handshake s⟩ m l).2 := by
  unfold handshakeWrite Fresh
  dsimp only
  split <;> rename_i hst <;> split at hst <;> simp_all
  all_goals (try (split at hst <;> simp_all))
  all_goals (subst hst; cases r <;> rfl)

theorem write_fresh (em : Encap) (r : Role) (pid : UInt32) (s : HS) : Fresh (sessionWrite em ⟨r, pid, .handshake s⟩).2.2 := by
  unfold sessionWrite
  dsimp only
  generalize (if s.step = 0 then 2 else if s.step = 1 then 1 else 5) = cl
  split
  · trivial
  · split
    · trivial
    · rename_i l _
      have := handshakeWrite_fresh r pid s em.msg l
      split
      · split <;> simp_all
      · trivial

theorem handshakeRead_fresh (peers : List Peer) (r : Role) (pid : UInt32) (s : HS) (m : Bytes) (l : ℕ) :
    Fresh (handshakeRead peers ⟨r, pid, .handshake s⟩ m l).2 := by
  unfold handshakeRead Fresh
  dsimp only
  split <;> rename_i hst <;> split at hst <;> simp_all
  all_goals (try (split at hst <;> simp_all))
  all_goals (subst hst; cases r <;> rfl)

theorem read_fresh (peers : List Peer) (input : Bytes) (r : Role) (pid : UInt32) (s : HS) :
    Fresh (sessionRead peers ⟨r, pid, .handshake s⟩ input).2.2 := by
  unfold sessionRead
  dsimp only
  split
  · trivial
  · split
    · split
      · trivial
      · rename_i l _
        have := handshakeRead_fresh peers r pid s input l
        split <;> simp_all
    · trivial

/-- The log of encryptions of a session in transport state -/
theorem encryptions_transport (cs : List Call) (r : Role) (pid : UInt32) (t : TS) :
    encryptions cs ⟨r, pid, .transport t⟩ =
        (encryptions cs ⟨r, pid, .transport t⟩).mapIdx (fun i e => (e.1, aeadEnc t.sendKey (t.sendNonce + UInt64.ofNat i) [] e.1)) ∧
      t.sendNonce.toNat + (encryptions cs ⟨r, pid, .transport t⟩).length ≤ 2 ^ 64 - 1 := by
  induction cs generalizing t with
  | nil => simp [encryptions]; have := t.sendNonce.toNat_lt; omega
  | cons c cs ih =>
    cases c with
    | read peers input =>
      obtain ⟨t', h1, h2, h3⟩ := read_transport_keeps peers input r pid t
      simp only [encryptions, h1]
      rw [← h2, ← h3]
      exact ih t'
    | write em =>
      rcases write_transport em r pid t with ⟨hw, hl, hn⟩ | ⟨e, hw⟩
      · simp only [encryptions, hw]
        obtain ⟨i1, i2⟩ := ih { t with sendNonce := t.sendNonce + 1 }
        rw [toNat_succ hn] at i2
        constructor
        · rw [List.mapIdx_cons]
          have z : UInt64.ofNat 0 = 0 := rfl
          simp only [z, UInt64.add_zero, List.cons.injEq, true_and]
          refine i1.trans ?_
          congr 1
          funext i e
          simp only [Prod.mk.injEq, true_and]
          rw [UInt64.add_assoc, show i + 1 = 1 + i from Nat.add_comm _ _, UInt64.ofNat_add]
          rfl
        · simp only [List.length_cons]; omega
      · simp only [encryptions, hw]
        exact ih t

theorem encryptions_fresh (cs : List Call) (sn : Session) (h : Fresh sn) :
    ∃ k, encryptions cs sn = (encryptions cs sn).mapIdx (fun i e => (e.1, aeadEnc k (UInt64.ofNat i) [] e.1)) ∧
      (encryptions cs sn).length ≤ 2 ^ 64 - 1 := by
  induction cs generalizing sn with
  | nil => exact ⟨zero32, by simp [encryptions]⟩
  | cons c cs ih =>
    obtain ⟨r, pid, st⟩ := sn
    cases st with
    | transport t =>
      have h0 : t.sendNonce = 0 := h
      have := encryptions_transport (c :: cs) r pid t
      refine ⟨t.sendKey, ?_, ?_⟩
      · refine this.1.trans ?_
        congr 1
        funext i e
        rw [h0, UInt64.zero_add]
      · have := this.2; omega
    | handshake s =>
      cases c with
      | read peers input =>
        exact ih _ (read_fresh peers input r pid s)
      | write em =>
        exact ih _ (write_fresh em r pid s)

/-! ### Levels -/

theorem secOk_iff (c : ℕ) (em : Encap) : secOk c em = true ↔ em.msg = [] ∨ ∃ l, em.level = .conf l ∧
    (l ≥ 2 ∧ c ≥ l ∨ l = 1 ∧ (c = 1 ∨ c ≥ 3) ∨ l = 0) := by
  unfold secOk
  by_cases h : em.msg = []
  · simp [h]
  · have h' : ¬ em.msg.length = 0 := fun h0 => h (List.length_eq_zero_iff.mp h0)
    simp only [h', if_false, h, false_or]
    cases em.level <;> simp
    rename_i l
    constructor
    · rintro ((h | ⟨h, h'⟩) | h)
      · exact .inl h
      · exact .inr (.inl ⟨h, h.symm ▸ h'⟩)
      · exact .inr (.inr h)
    · rintro (h | ⟨h, h'⟩ | h)
      · exact .inl (.inl h)
      · exact .inl (.inr ⟨h, h.symm ▸ h'⟩)
      · exact .inr h

theorem secOk_allowed (step : ℕ) (em : Encap) :
    secOk (if step = 0 then 2 else if step = 1 then 1 else 5) em = true ↔
      em.msg = [] ∨ ∃ l, em.level = .conf l ∧ l ∈ allowed step := by
  rw [secOk_iff]
  apply or_congr_right
  apply exists_congr
  intro l
  apply and_congr_right
  intro _
  match step with
  | 0 => simp [allowed]; omega
  | 1 => simp [allowed]; omega
  | n + 2 => simp [allowed]; omega

/-! ### Who the responder talks to -/

/-- A responder in transport state has a peer id from the list. -/
def KnownPeer (peers : List Peer) (sn : Session) : Prop :=
  sn.role = .responder ∧ ∀ t, sn.st = .transport t → ∃ p ∈ peers, p.id = sn.pid

theorem knownPeer_write {peers : List Peer} {em : Encap} {sn : Session} (h : KnownPeer peers sn) :
    KnownPeer peers (sessionWrite em sn).2.2 := by
  obtain ⟨r, pid, st⟩ := sn
  obtain ⟨hr, hk⟩ := h
  simp only at hr hk
  subst hr
  cases st with
  | transport t =>
    obtain ⟨p, hp⟩ := hk t rfl
    rcases write_transport em .responder pid t with ⟨hw, _, _⟩ | ⟨e, hw⟩ <;> rw [hw]
    · exact ⟨rfl, fun _ _ => ⟨p, hp⟩⟩
    · exact ⟨rfl, fun _ _ => ⟨p, hp⟩⟩
  | handshake s =>
    have hs : ∀ l, KnownPeer peers (handshakeWrite ⟨.responder, pid, .handshake s⟩ em.msg l).2 := by
      intro l
      unfold handshakeWrite
      by_cases h3 : s.step ≥ 3
      · simp [h3, KnownPeer]
      · by_cases h2 : s.step % 2 = 0
        · simp [h3, h2, KnownPeer]
        · have h1 : ¬ s.step = 2 := by omega
          simp only [h3, h2, h1, if_false]
          split <;> simp [KnownPeer]
    have h0 : KnownPeer peers ⟨.responder, pid, .handshake s⟩ := by simp [KnownPeer]
    unfold sessionWrite
    dsimp only
    generalize (if s.step = 0 then 2 else if s.step = 1 then 1 else 5) = cl
    split
    · exact h0
    · split
      · exact h0
      · rename_i l _
        have := hs l
        split
        · split <;> simp_all
        · exact h0

theorem respRead2_peer {peers : List Peer} {s s' : HS} {input p : Bytes} {l : ℕ} {i : UInt32}
    (heq : respRead2 peers s input l = (.ok (p, i), s')) : ∃ q ∈ peers, q.id = i := by
  unfold respRead2 at heq
  split at heq
  · simp at heq
  · split at heq
    · simp at heq
    · dsimp only at heq
      split at heq
      · simp at heq
      · rename_i peer hf
        split at heq
        · simp at heq
        · split at heq
          · simp at heq
          · simp only [Prod.mk.injEq, Except.ok.injEq] at heq
            exact ⟨peer, List.mem_of_find?_eq_some hf, heq.1.2⟩

theorem knownPeer_read {peers : List Peer} {input : Bytes} {sn : Session} (h : KnownPeer peers sn) :
    KnownPeer peers (sessionRead peers sn input).2.2 := by
  obtain ⟨r, pid, st⟩ := sn
  obtain ⟨hr, hk⟩ := h
  simp only at hr hk
  subst hr
  cases st with
  | transport t =>
    obtain ⟨t', h1, _⟩ := read_transport_keeps peers input .responder pid t
    rw [h1]
    obtain ⟨p, hp⟩ := hk t rfl
    exact ⟨rfl, fun _ _ => ⟨p, hp⟩⟩
  | handshake s =>
    have hs : ∀ l, KnownPeer peers (handshakeRead peers ⟨.responder, pid, .handshake s⟩ input l).2 := by
      intro l
      unfold handshakeRead
      by_cases h3 : s.step ≥ 3
      · simp [h3, KnownPeer]
      · by_cases h2 : s.step % 2 = 1
        · simp [h3, h2, KnownPeer]
        · by_cases h1 : s.step = 0
          · simp only [if_neg h3, if_neg h2, if_pos h1]
            split <;> simp [KnownPeer, h1]
          · simp only [if_neg h3, if_neg h2, if_neg h1]
            split
            · simp [KnownPeer]
            · rename_i heq
              exact ⟨rfl, fun _ _ => respRead2_peer heq⟩
    have h0 : KnownPeer peers ⟨.responder, pid, .handshake s⟩ := by simp [KnownPeer]
    unfold sessionRead
    dsimp only
    split
    · exact h0
    · split
      · split
        · exact h0
        · rename_i l _
          have := hs l
          split <;> simp_all
      · exact h0

/-- The handshake of the model sends the messages of the specification. -/
theorem conforms {prologue : Bytes} {si ei sr er : B32} (p1 p2 p3 : Bytes)
    {kes kee kse : B32} (hes : dh ei (xbase sr) = some kes) (hee : dh er (xbase ei) = some kee)
    (hse : dh si (xbase er) = some kse) :
    let hs := mixHash (mixHash h0 prologue) (xbase sr).toList
    let h1 := mixHash hs (xbase ei).toList
    let x1 := mixK kes h0
    let c1 := aeadEnc x1.2 0 h1.toList p1
    let h2 := mixHash h1 c1
    let h3 := mixHash h2 (xbase er).toList
    let x2 := mixK kee x1.1
    let c2 := aeadEnc x2.2 0 h3.toList p2
    let h4 := mixHash h3 c2
    let c3 := aeadEnc x2.2 1 h4.toList (xbase si).toList
    let h5 := mixHash h4 c3
    let x3 := mixK kse x2.1
    let c4 := aeadEnc x3.2 0 h5.toList p3
    let h6 := mixHash h5 c4
    Spec.NoiseXK.handshake prologue ⟨si, xbase si⟩ ⟨ei, xbase ei⟩ ⟨sr, xbase sr⟩ ⟨er, xbase er⟩ p1 p2 p3 =
      some ⟨(xbase ei).toList ++ c1, (xbase er).toList ++ c2, c3 ++ c4, key32 (kdf x3.1 []).1, key32 (kdf x3.1 []).2,
        h6.toList⟩ := by
  have k1 : ∀ (ck : B64) (key : Bytes), (Spec.NoiseXK.hkdf ck.toList key).1 = (kdf ck key).1.toList :=
    fun ck key => by rw [← kdf_eq]
  have k2 : ∀ (ck : B64) (key : Bytes), (Spec.NoiseXK.hkdf ck.toList key).2 = (kdf ck key).2.toList :=
    fun ck key => by rw [← kdf_eq]
  simp only [Spec.NoiseXK.handshake, writeMessage, tokens, token, hes, hee, hse, Option.map_some, if_true,
    encryptAndHash, mixKey, Spec.NoiseXK.mixHash, initSym, ← h0_eq, ← mixHash_eq, k1, k2, mixK, key32,
    List.append_nil, UInt64.zero_add]

end

end Verif.Noise

namespace Verif.Toy

/-- A concrete instance: addition in place of Diffie-Hellman, a zero tag in place of encryption. -/
@[reducible] def noise : NoiseCrypto where
  xbase b := b
  dh a b := some (B32.ofNat (a.toNat + b.toNat))
  aeadEnc _ _ _ p := p ++ List.replicate 16 0
  aeadDec _ _ _ c := if c.drop (c.length - 16) = List.replicate 16 0 then some (c.take (c.length - 16)) else none
  dh_comm a b := by rw [Nat.add_comm]
  dh_base _ _ := rfl
  enc_length _ _ _ _ := by simp
  dec_enc _ _ _ _ := by simp
  dec_length _ _ _ c p h := by
    split at h
    · rename_i h'
      have := congrArg List.length h'
      simp only [List.length_drop, List.length_replicate] at this
      simp only [Option.some.injEq] at h
      subst h
      simp only [List.length_take]
      omega
    · cases h

end Verif.Toy
