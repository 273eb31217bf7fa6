import Verif.Spec.Defence
import Verif.Proofs.PeerCheck
import Verif.Proofs.PeerPtr
import Verif.Proofs.HonestPeer2

/-!
# Lemmas about the answers and complaints of a peer
-/

set_option linter.unusedSectionVars false

namespace Verif

namespace Noise

variable [Hashes] [NoiseCrypto]

/-- A write of 64 bytes more than the payload ends the handshake of an initiator. -/
theorem sessionWrite_first {conf : ℕ} {sn sn' : Session} {m : Bytes}
    (h : sessionWrite (pack conf []) sn = (.success, some m, sn')) (hl : m.length = 64) :
    ∃ pid t, sn' = ⟨.initiator, pid, .transport t⟩ ∧ t.sendNonce = 0 := by
  obtain ⟨r, pid, st⟩ := sn
  cases st with
  | transport t =>
    rcases write_transport (pack conf []) r pid t with h' | ⟨e, h'⟩
    · rw [h'.1] at h
      simp only [Prod.mk.injEq, Option.some.injEq, true_and] at h
      rw [← h.1, NoiseCrypto.enc_length] at hl
      simp [pack] at hl
    · rw [h'] at h
      cases h
  | handshake s =>
    unfold sessionWrite at h
    dsimp only at h
    generalize (if s.step = 0 then 2 else if s.step = 1 then 1 else 5) = cl at h
    split at h
    · cases h
    split at h
    · cases h
    split at h
    · split at h
      · rename_i he
        simp only [Prod.mk.injEq, Option.some.injEq, true_and] at h
        obtain ⟨rfl, rfl⟩ := h
        obtain ⟨t, ht⟩ := handshakeWrite_last he (by rw [hl]; rfl)
        unfold handshakeWrite at he
        dsimp only at he
        split at he
        · cases he
        rename_i s' hr
        simp only [Prod.mk.injEq, Except.ok.injEq] at he
        obtain ⟨rfl, rfl⟩ := he
        dsimp only at ht
        split at ht
        · rename_i h2
          cases r with
          | initiator => exact ⟨pid, _, by rw [if_pos h2], rfl⟩
          | responder =>
            rw [h2] at hr
            simp at hr
        · cases ht
      · cases h
    · cases h

/-- A read of a message with an empty payload that is 64 bytes long ends the handshake of a responder. -/
theorem sessionRead_first {peers : List Peer} {sn sn' : Session} {input : Bytes} {em : Encap}
    (h : sessionRead peers sn input = (.success, some em, sn')) (hl : input.length = em.msg.length + 64) :
    ∃ pid t, sn' = ⟨.responder, pid, .transport t⟩ ∧ t.recvNonce = 0 := by
  obtain ⟨r, pid, st⟩ := sn
  cases st with
  | transport t =>
    exfalso
    unfold sessionRead transportRead at h
    dsimp only at h
    split at h
    · split at h
      · rename_i he
        simp only [Prod.mk.injEq, Option.some.injEq, true_and] at h
        obtain ⟨rfl, rfl⟩ := h
        split at he
        · simp at he
        split at he
        · simp at he
        split at he
        · simp at he
        · rename_i hd
          simp only [Prod.mk.injEq, Except.ok.injEq] at he
          obtain ⟨rfl, -⟩ := he
          have := NoiseCrypto.dec_length _ _ _ _ _ hd
          dsimp only at hl
          omega
      · simp at h
    · simp at h
  | handshake s =>
    unfold sessionRead at h
    dsimp only at h
    split at h
    · simp at h
    split at h
    · split at h
      · simp at h
      · split at h
        · rename_i he
          simp only [Prod.mk.injEq, Option.some.injEq, true_and] at h
          obtain ⟨rfl, rfl⟩ := h
          obtain ⟨t, ht⟩ := handshakeRead_last he hl
          unfold handshakeRead at he
          dsimp only at he
          split at he
          · cases he
          rename_i p' pid' s' hr
          simp only [Prod.mk.injEq, Except.ok.injEq] at he
          obtain ⟨rfl, rfl⟩ := he
          dsimp only at ht
          split at ht
          · rename_i h2
            cases r with
            | responder => exact ⟨_, _, by rw [if_pos h2], rfl⟩
            | initiator =>
              rw [h2] at hr
              simp at hr
          · cases ht
        · simp at h
    · simp at h

end Noise

namespace TpDkg

open H Wire Noise

variable [Hashes] [NoiseCrypto]

theorem encryptNoise_first {slot slot' : Ptr Session} {m : Option Bytes} (h : encryptNoise slot [] 64 = .ok (0, slot', m)) :
    ∃ pid t m1, slot' = .live ⟨.initiator, pid, .transport t⟩ ∧ t.sendNonce = 0 ∧ m = some m1 ∧ m1.length = 64 := by
  unfold encryptNoise at h
  rw [C.bind_eq_ok] at h
  obtain ⟨sn, -, h⟩ := h
  cases sn with
  | none => simp at h
  | some sn =>
    dsimp only at h
    split at h
    · simp at h
    rcases hw : sessionWrite (pack 5 []) sn with ⟨rc, out, sn'⟩
    rw [hw] at h
    dsimp only at h
    split at h
    · simp at h
    split at h
    · simp at h
    rename_i hs hm
    simp only [C.ok.injEq, Prod.mk.injEq, true_and] at h
    obtain ⟨rfl, rfl⟩ := h
    have hrc : rc = .success := by cases rc <;> simp_all [RCode.isSuccess]
    subst hrc
    cases out with
    | none => simp at hm
    | some m1 =>
      simp only [Option.getD_some, not_not] at hm
      obtain ⟨pid, t, rfl, ht⟩ := sessionWrite_first hw hm
      exact ⟨pid, t, m1, rfl, ht, rfl, hm⟩

theorem encryptNoise_next {r : Role} {pid : UInt32} {t : TS} {slot' : Ptr Session} {p : Bytes} {l : ℕ} {m : Option Bytes}
    (h : encryptNoise (.live ⟨r, pid, .transport t⟩) p l = .ok (0, slot', m)) :
    m = some (NoiseCrypto.aeadEnc t.sendKey t.sendNonce [] p) ∧
    slot' = .live ⟨r, pid, .transport { t with sendNonce := t.sendNonce + 1 }⟩ := by
  unfold encryptNoise at h
  rw [C.bind_eq_ok] at h
  obtain ⟨sn, hsn, h⟩ := h
  cases hsn
  dsimp only at h
  split at h
  · simp at h
  rcases write_transport (pack 5 p) r pid t with h' | ⟨e, h'⟩
  · rw [h'.1] at h
    dsimp only at h
    split at h
    · simp at h
    split at h
    · simp at h
    simp only [C.ok.injEq, Prod.mk.injEq, true_and] at h
    obtain ⟨rfl, rfl⟩ := h
    exact ⟨rfl, rfl⟩
  · rw [h'] at h
    simp [RCode.isSuccess] at h

theorem decryptNoise_first {dv : Device} {slot slot' : Ptr Session} {p : Bytes} {m : Option Bytes} (hp : p.length = 64)
    (h : decryptNoise dv slot p 0 = .ok (0, slot', m)) :
    ∃ pid t, slot' = .live ⟨.responder, pid, .transport t⟩ ∧ t.recvNonce = 0 := by
  unfold decryptNoise at h
  rw [C.bind_eq_ok] at h
  obtain ⟨sn, -, h⟩ := h
  cases sn with
  | none => simp at h
  | some sn =>
    dsimp only at h
    split at h
    · simp at h
    rcases hw : sessionRead dv.peers sn p with ⟨rc, out, sn'⟩
    rw [hw] at h
    dsimp only at h
    split at h
    · simp at h
    split at h
    · simp at h
    rename_i hs m' hm
    split at h
    · simp at h
    rename_i hl
    simp only [C.ok.injEq, Prod.mk.injEq, true_and] at h
    obtain ⟨rfl, rfl⟩ := h
    have hrc : rc = .success := by cases rc <;> simp_all [RCode.isSuccess]
    subst hrc
    cases out with
    | none => simp at hm
    | some em =>
      have he : em.msg = m' := by
        rw [Option.bind_some] at hm
        unfold unpack at hm
        dsimp only at hm
        rw [Option.ite_none_right_eq_some] at hm
        exact Option.some.inj hm.2
      obtain ⟨pid, t, rfl, ht⟩ := sessionRead_first hw (by rw [he, hp]; simp only [not_not] at hl; rw [hl])
      exact ⟨pid, t, rfl, ht⟩

theorem decryptNoise_next {dv : Device} {r : Role} {pid : UInt32} {t : TS} {slot' : Ptr Session} {p : Bytes} {l : ℕ}
    {m : Option Bytes} (h : decryptNoise dv (.live ⟨r, pid, .transport t⟩) p l = .ok (0, slot', m)) :
    ∃ m', m = some m' ∧ NoiseCrypto.aeadDec t.recvKey t.recvNonce [] p = some m' ∧ m'.length = l := by
  unfold decryptNoise at h
  rw [C.bind_eq_ok] at h
  obtain ⟨sn, hsn, h⟩ := h
  cases hsn
  dsimp only at h
  split at h
  · simp at h
  rcases hw : sessionRead dv.peers ⟨r, pid, .transport t⟩ p with ⟨rc, out, sn'⟩
  rw [hw] at h
  dsimp only at h
  split at h
  · simp at h
  split at h
  · simp at h
  rename_i hs m' hm
  split at h
  · simp at h
  rename_i hl
  simp only [C.ok.injEq, Prod.mk.injEq, true_and] at h
  obtain ⟨rfl, rfl⟩ := h
  have hrc : rc = .success := by cases rc <;> simp_all [RCode.isSuccess]
  subst hrc
  refine ⟨m', rfl, ?_, by simpa using hl⟩
  unfold sessionRead transportRead at hw
  dsimp only at hw
  split at hw
  · split at hw
    · rename_i he
      simp only [Prod.mk.injEq, true_and] at hw
      obtain ⟨rfl, rfl⟩ := hw
      split at he
      · simp at he
      split at he
      · simp at he
      split at he
      · simp at he
      · rename_i hd
        simp only [Prod.mk.injEq, Except.ok.injEq] at he
        obtain ⟨rfl, -⟩ := he
        rw [Option.bind_some] at hm
        unfold unpack at hm
        dsimp only at hm
        rw [Option.ite_none_right_eq_some] at hm
        rw [hd, hm.2]
    · simp at hw
  · simp at hw

/-- An opened session with this key and the nonces after one message. -/
def sessionOpen (slot : Ptr Session) (key : B32) : Prop := ∃ pid t, slot = .live ⟨.initiator, pid, .transport t⟩ ∧ t.sendKey = key

/-- The entries of the list of failures: the failures before, then in increasing order dealers from `i` on, other than the
receiver, whose share was not accepted. -/
theorem verifyAll_fails (G : Type) [Ristretto G] {scratch : B32} {n t self : UInt8} {css : List (List B32)}
    {shares : List Share} (hn : n.toNat ≤ 254) : ∀ {fuel : ℕ} {i : UInt8} {fails fails' : List UInt8} {len len' : UInt8} {r : Int},
    1 ≤ i.toNat → i.toNat ≤ n.toNat + 1 → len.toNat < i.toNat → n.toNat ≤ fails.length →
    Dkg.verifyAll G scratch n t self css shares fuel i fails len = .ok (r, fails', len') →
    ∃ new : List UInt8, fails'.take len'.toNat = fails.take len.toNat ++ new ∧ len'.toNat = len.toNat + new.length ∧
      fails'.drop len'.toNat = fails.drop len'.toNat ∧ (new.map UInt8.toNat).Pairwise (· < ·) ∧
      ∀ x ∈ new, i.toNat ≤ x.toNat ∧ x.toNat ≤ n.toNat ∧ x ≠ self ∧ ∃ cs sh v, css[x.toNat - 1]? = some cs ∧
        shares[x.toNat - 1]? = some sh ∧ Dkg.verifyCommitment G scratch t self x cs sh = .ok v ∧ v ≠ 0 ∧ v ≠ -1
  | 0, _, _, _, _, _, _, _, _, _, _, h => by cases h
  | fuel + 1, i, fails, fails', len, len', r, h1, hi, hl, hf, h => by
    unfold Dkg.verifyAll at h
    have hi1 : i ≤ n → (i + 1).toNat = i.toNat + 1 := fun h => by
      have : i.toNat ≤ n.toNat := h
      rw [UInt8.toNat_add]; simp; omega
    split at h
    · rename_i hin
      have hin' : i.toNat ≤ n.toNat := hin
      split at h
      · obtain ⟨new, q1, q2, q3, q4, q5⟩ := verifyAll_fails G hn (by rw [hi1 hin]; omega) (by rw [hi1 hin]; omega)
          (by rw [hi1 hin]; omega) hf h
        exact ⟨new, q1, q2, q3, q4, fun x hx => by
          obtain ⟨a, b⟩ := q5 x hx
          rw [hi1 hin] at a
          exact ⟨by omega, b⟩⟩
      rename_i hne
      split at h
      · cases h
      simp only [C.bind_eq_ok] at h
      obtain ⟨cs, hcs, sh, hsh, ret, hret, h⟩ := h
      split at h
      · cases h; exact ⟨[], by simp, by simp, rfl, by simp, by simp⟩
      rename_i hm1
      split at h
      · obtain ⟨new, q1, q2, q3, q4, q5⟩ := verifyAll_fails G hn (by rw [hi1 hin]; omega) (by rw [hi1 hin]; omega)
          (by rw [hi1 hin]; omega) hf h
        exact ⟨new, q1, q2, q3, q4, fun x hx => by
          obtain ⟨a, b⟩ := q5 x hx
          rw [hi1 hin] at a
          exact ⟨by omega, b⟩⟩
      rename_i h0
      rw [C.bind_eq_ok] at h
      obtain ⟨fs, h2, h⟩ := h
      have hl1 : (len + 1).toNat = len.toNat + 1 := by rw [UInt8.toNat_add]; simp; omega
      have hfs : fs = fails.set len.toNat i := by
        unfold st at h2
        split at h2
        · cases h2; rfl
        · cases h2
      obtain ⟨new, q1, q2, q3, q4, q5⟩ := verifyAll_fails G hn (by rw [hi1 hin]; omega) (by rw [hi1 hin]; omega)
        (by rw [hi1 hin, hl1]; omega) (by rw [hfs, List.length_set]; exact hf) h
      have hld : ∀ {α : Type} {l : List α} {k : ℕ} {a : α}, ld l k = .ok a → l[k]? = some a := by
        intro α l k a h
        unfold ld at h
        split at h
        · rename_i h'
          cases h
          exact h'
        · cases h
      refine ⟨i :: new, ?_, ?_, ?_, ?_, ?_⟩
      · rw [q1, hl1, hfs, List.take_add_one, List.getElem?_set_self (by omega), List.take_set, List.set_eq_of_length_le (by simp)]
        simp
      · rw [q2, hl1, List.length_cons]
        omega
      · rw [q3, hfs, List.drop_set_of_lt (by omega)]
      · rw [List.map_cons, List.pairwise_cons]
        refine ⟨?_, q4⟩
        intro y hy
        obtain ⟨x, hx, rfl⟩ := List.mem_map.1 hy
        have := (q5 x hx).1
        rw [hi1 hin] at this
        omega
      · intro x hx
        rcases List.mem_cons.1 hx with rfl | hx
        · exact ⟨le_refl _, hin', hne, cs, sh, ret, hld hcs, hld hsh, hret, h0, hm1⟩
        · obtain ⟨a, b⟩ := q5 x hx
          rw [hi1 hin] at a
          exact ⟨by omega, b⟩
    · cases h
      exact ⟨[], by simp, by simp, rfl, by simp, by simp⟩

/-! ### Step 13 -/

namespace Peer

variable [Signing] [Mac] {clock : ℕ → UInt64} {log mlock : Bool} {scratch : B32} {rnd : Rnd} {input : Bytes} {s : PRun}

/-- The exits of a handler that are not successes. -/
abbrev Bad : Int → PRun → Prop := fun r _ => r ≠ 0

theorem ok_encrypt {Q : Unit → PRun → Prop} {p : Bytes} {off l i : ℕ} {code : Int} (hc : code ≠ 0)
    (houts : i < s.ctx.outs.length) (hout : off + l ≤ s.out.length)
    (hQ : ∀ slot m, encryptNoise s.ctx.outs[i] p l = .ok (0, slot, m) → Q () { s with
      ctx := { s.ctx with outs := s.ctx.outs.set i slot }
      out := spliceOpt s.out off m }) :
    Wp (encrypt p off l i code) True Bad Q s := by
  unfold encrypt
  rw [wp_bind, wp_get, wp_bind, wp_lift_ok (ld_ok houts), wp_bind]
  refine wp_lift_of trivial fun v hv => ?_
  obtain ⟨r, slot, m⟩ := v
  dsimp only
  rw [wp_bind, wp_setOuts houts, wp_ite]
  refine ⟨fun h0 => hc, fun h0 => ?_⟩
  have h0 : r = 0 := by simpa using h0
  subst h0
  rw [wp_copy (by
    intro x hx
    subst hx
    rw [encryptNoise_length hv]
    exact hout)]
  exact hQ slot m hv

theorem ok_decrypt {Q : Bytes → PRun → Prop} {p : Bytes} {l i : ℕ} {code : Int} (hc : code ≠ 0)
    (hins : i < s.ctx.ins.length)
    (hQ : ∀ dv slot m, decryptNoise dv s.ctx.ins[i] p l = .ok (0, slot, m) →
      Q (m.getD []) { s with ctx := { s.ctx with ins := s.ctx.ins.set i slot } }) :
    Wp (decrypt p l i code) True Bad Q s := by
  unfold decrypt getDev
  rw [wp_bind, wp_bind, wp_get, wp_bind]
  refine wp_lift_of trivial fun v hv => ?_
  cases v with
  | none => exact wp_lift_of trivial fun _ h => by cases h
  | some dv =>
  rw [wp_pure, wp_bind, wp_get, wp_bind, wp_lift_ok (ld_ok hins), wp_bind]
  refine wp_lift_of trivial fun v hv => ?_
  obtain ⟨r, slot, m⟩ := v
  dsimp only
  rw [wp_bind, wp_setIns hins, wp_ite]
  refine ⟨fun h0 => hc, fun h0 => ?_⟩
  have h0 : r = 0 := by simpa using h0
  subst h0
  exact hQ dv slot m hv

theorem ok_step13Body {Q : Unit → PRun → Prop} {i : ℕ} {t : UInt8} (hin : 111 + (i + 1) * msg6Size t ≤ input.length)
    (hout : (i + 1) * 256 ≤ s.out.length) (hts : i < s.ctx.lastTs.length) (hpk : i < s.ctx.sigPks.length)
    (hsh : i < s.ctx.shares.length) (hcm : (i + 1) * t.toNat ≤ s.ctx.commitments.length)
    (houts : i < s.ctx.outs.length)
    (hQ : ∀ last k slot m1 key, sessionOpen slot key → m1.length = 64 →
      (NoiseCrypto.aeadEnc key 0 [] (shareBytes s.ctx.shares[i])).length = 49 →
      Q () (after13 clock input t slot m1 (NoiseCrypto.aeadEnc key 0 [] (shareBytes s.ctx.shares[i])) key i last k s)) :
    Wp (step13Body clock log input t i) True Bad Q s := by
  have hs : msg6Size t = 111 + 32 * t.toNat := rfl
  have hm : (i + 1) * msg6Size t = i * msg6Size t + msg6Size t := by ring
  have hcm' : (i + 1) * t.toNat = i * t.toNat + t.toNat := by ring
  unfold step13Body
  dsimp only [hdrSize, msg8Size]
  rw [wp_bind, wp_dump (by omega), wp_bind, wp_sigPkOf (by exact hpk), wp_bind]
  refine wp_recv (by omega) (by omega) hts fun r last k hr => ?_
  rw [wp_ite]
  refine ⟨fun h0 => (by decide : (64 : Int) ≠ 0), fun h0 => ?_⟩
  rw [wp_bind, wp_lift_ok (rd_slice' (by omega)), wp_bind, wp_setCommitments (by
    rw [toB32s_length]
    show _ ≤ s.ctx.commitments.length
    omega), wp_bind]
  refine ok_encrypt (s := _) (by decide) (by exact houts) (by dsimp only; omega) fun slot1 o1 h1 => ?_
  obtain ⟨pid, ts, m1, rfl, hts0, rfl, l1⟩ := encryptNoise_first h1
  have e1 : (splice s.out (i * 256 + 111) m1).length = s.out.length := splice_length (by omega)
  rw [wp_bind, wp_get, wp_bind, wp_lift_ok (ld_ok (by exact hsh)), wp_bind]
  refine ok_encrypt (s := _) (by decide) (by simpa [received] using houts) ?_ fun slot2 o2 h2 => ?_
  · show _ ≤ (splice s.out (i * 256 + 111) m1).length
    omega
  simp only [received, List.getElem_set_self] at h2
  have l2' : ∀ m2, o2 = some m2 → m2.length = 49 := fun m2 h => by subst h; exact encryptNoise_length h2
  obtain ⟨rfl, rfl⟩ := encryptNoise_next h2
  rw [hts0] at *
  have l2 := l2' _ rfl
  set m2 := NoiseCrypto.aeadEnc ts.sendKey 0 [] (shareBytes s.ctx.shares[i]) with hm2
  have e2 : (splice (splice s.out (i * 256 + 111) m1) (i * 256 + 111 + 64) m2).length = s.out.length := by
    rw [splice_length (by omega), e1]
  have e3 : (put8 s.out i m1 m2 ts.sendKey).length = s.out.length := put8_length hout l1 l2
  have hbox : slice (splice (splice s.out (i * 256 + 111) m1) (i * 256 + 111 + 64) m2) (i * 256 + 111 + 64) 49 = m2 := by
    rw [← l2]; exact slice_splice_same (by omega)
  unfold commitKey
  rw [wp_bind, wp_bind, wp_get, wp_bind, wp_lift_ok (rd_slice' (by
    show _ ≤ (splice (splice s.out (i * 256 + 111) m1) (i * 256 + 111 + 64) m2).length
    omega)), wp_bind, wp_lift_ok (ld_ok (by simpa [received] using houts)), wp_bind, wp_lift_ok (a := ts.sendKey) (by
    simp only [received, List.set_set, List.getElem_set_self]
    rfl)]
  simp only [spliceOpt]
  rw [hbox]
  rw [wp_setOut (by
    rw [e2]; simp; omega), wp_bind, wp_send (by
    show _ ≤ (put8 s.out i m1 m2 ts.sendKey).length
    omega), wp_dumpOut (by
    show _ ≤ (splice (put8 s.out i m1 m2 ts.sendKey) _ _).length
    rw [splice_length (by rw [header_length]; omega)]
    omega)]
  simp only [received, List.set_set]
  exact hQ last k _ m1 ts.sendKey ⟨_, _, rfl, rfl⟩ l1 l2

theorem header_append (c : PeerState) (now : UInt64) (msgno rcp : UInt8) (body : Bytes) (l : ℕ) (hl : l = 111 + body.length) :
    header c now l msgno rcp ++ body = signedBy c msgno rcp now body := by
  unfold header signedBy
  rw [encode_nil_append, hl]

/-- What the steps after the start leave unchanged. -/
def base (c : PeerState) : UInt8 × UInt8 × UInt8 × B32 × B64 × List Share := (c.n, c.t, c.index, c.sid, c.sigSk, c.shares)

theorem PWF_after13 {t : UInt8} {slot : Ptr Session} {m1 m2 : Bytes} {key : B32} {i k : ℕ} {last : UInt64} (w : PWF s.ctx)
    (ht : s.ctx.t = t) (hi : i < s.ctx.n.toNat) : PWF (after13 clock input t slot m1 m2 key i last k s).ctx := by
  have hcm : (i + 1) * t.toNat ≤ s.ctx.n.toNat * t.toNat := Nat.mul_le_mul_right _ hi
  rw [Nat.add_mul, Nat.one_mul] at hcm
  exact { w with
    lastTs := by simp [after13, received]; exact w.lastTs
    outs := by simp [after13, received]; exact w.outs
    commitments := by
      show (splice s.ctx.commitments _ _).length = _
      rw [splice_length]
      · exact w.commitments
      · unfold commits6
        rw [toB32s_length, w.commitments, ht]
        exact hcm }

theorem slice_last {l a b : Bytes} {j sz : ℕ} (h : l.take ((j + 1) * sz) = a ++ b) (ha : a.length = j * sz) :
    slice l (j * sz) sz = b := by
  unfold slice
  have : (l.drop (j * sz)).take sz = (l.take ((j + 1) * sz)).drop (j * sz) := by
    rw [List.drop_take, Nat.add_mul, Nat.one_mul, Nat.add_sub_cancel_left]
  rw [this, h]
  exact List.drop_left' ha

theorem ok_step13 (w : PWF s.ctx) (hin : input.length = 111 + msg6Size s.ctx.t * s.ctx.n.toNat)
    (hout : s.out.length = s.ctx.n.toNat * 256) :
    Wp (step13 clock log input) True Bad (fun _ s' => base s'.ctx = base s.ctx ∧ s'.out.length = s.ctx.n.toNat * 256 ∧
      ∃ ks, Readings s.ctx s'.ctx s.ctx.n.toNat ks ∧
        ∀ j < s.ctx.n.toNat, Dealt s.ctx s'.ctx s'.out j (clock (ks j))) s := by
  refine wp_step13 rfl hin hout (fun m s' => base s'.ctx = base s.ctx ∧ s'.out.length = s.ctx.n.toNat * 256 ∧
    PWF s'.ctx ∧ s.ctx.ticks ≤ s'.ctx.ticks ∧ ∃ ks, Readings s.ctx s'.ctx m ks ∧
      ∀ j < m, Dealt s.ctx s'.ctx s'.out j (clock (ks j))) ?_ ?_ ?_ ?_
  · intro r last k hr h0
    have := recvMsg_range hr
    show (32 + r : Int) ≠ 0
    omega
  · intro last k hr
    refine ⟨rfl, hout, { w with }, Nat.le_add_right _ _, fun _ => 0, ⟨fun j hj => absurd hj (Nat.not_lt_zero j),
      fun i j _ hj => absurd hj (Nat.not_lt_zero j)⟩, fun j hj => absurd hj (Nat.not_lt_zero j)⟩
  · rintro i s' hi ⟨hb, ho, w', htk, ks, ⟨hk1, hk2⟩, hd⟩
    have hb' := hb
    simp only [base, Prod.mk.injEq] at hb'
    obtain ⟨en, et, ei, es, ek, esh⟩ := hb'
    have hi' : i < s'.ctx.n.toNat := by rw [en]; exact hi
    have h1 : (i + 1) * msg6Size s.ctx.t ≤ s.ctx.n.toNat * msg6Size s.ctx.t := Nat.mul_le_mul_right _ hi
    have h2 : (i + 1) * 256 ≤ s.ctx.n.toNat * 256 := Nat.mul_le_mul_right _ hi
    have h3 : (i + 1) * s.ctx.t.toNat ≤ s.ctx.n.toNat * s.ctx.t.toNat := Nat.mul_le_mul_right _ hi
    have hsl : i < s'.ctx.shares.length := by rw [w'.shares]; exact hi'
    have hol : i < s'.ctx.outs.length := by rw [w'.outs]; exact hi'
    refine ok_step13Body (by rw [hin, Nat.mul_comm (msg6Size _)]; omega) (by rw [ho]; exact h2) (by rw [w'.lastTs]; exact hi')
      (by rw [w'.sigPks]; exact hi') hsl (by rw [w'.commitments, en, et]; exact h3) hol ?_
    intro last k slot m1 key hslot hm1 hbox
    set box := NoiseCrypto.aeadEnc key 0 [] (shareBytes s'.ctx.shares[i]) with hboxd
    have hput : put8 s'.out i m1 box key = splice s'.out (i * 256 + 111) (m1 ++ box ++ (Mac.auth key box).toList) :=
      Honest.splice_three hm1 hbox (by simp) (by rw [ho]; omega)
    have hbl : (m1 ++ box ++ (Mac.auth key box).toList).length = 145 := by simp [hm1, hbox]
    obtain ⟨p1, p2⟩ := Honest.put_msg (out := s'.out) (i := i) (sz := 256) (m := m1 ++ box ++ (Mac.auth key box).toList)
      (header_length s'.ctx (clock (s'.ctx.ticks + k)) 256 8 (idx i)) (by rw [hbl]) (by rw [ho]; omega)
    rw [header_append _ _ _ _ _ _ (by rw [hbl])] at p1
    have hout' : (after13 clock input s.ctx.t slot m1 box key i last k s').out =
        splice (splice s'.out (i * 256 + 111) (m1 ++ box ++ (Mac.auth key box).toList)) (i * 256)
          (header s'.ctx (clock (s'.ctx.ticks + k)) 256 8 (idx i)) := by
      unfold after13
      rw [hput]
    have hsg : signedBy s'.ctx 8 (idx i) (clock (s'.ctx.ticks + k)) (m1 ++ box ++ (Mac.auth key box).toList) =
        signedBy s.ctx 8 (idx i) (clock (s'.ctx.ticks + k)) (m1 ++ box ++ (Mac.auth key box).toList) := by
      unfold signedBy
      rw [ei, es, ek]
    have hsgl : (signedBy s.ctx 8 (idx i) (clock (s'.ctx.ticks + k)) (m1 ++ box ++ (Mac.auth key box).toList)).length = 256 := by
      unfold signedBy
      rw [encode_length, hbl]
    refine ⟨hb, by rw [hout', p2, ho], PWF_after13 w' et hi', ?_, fun j => if j = i then s'.ctx.ticks + k else ks j, ⟨?_, ?_⟩, ?_⟩
    · show s.ctx.ticks ≤ s'.ctx.ticks + k + 1
      omega
    · intro j hj
      show _ ∧ _ < s'.ctx.ticks + k + 1
      dsimp only
      split
      · omega
      · have := hk1 j (by omega)
        omega
    · intro a b hab hb
      dsimp only
      rw [if_neg (by omega)]
      split
      · have := hk1 a (by omega)
        omega
      · exact hk2 a b hab (by omega)
    · intro j hj
      dsimp only
      rcases Nat.lt_or_eq_of_le (Nat.le_of_lt_succ hj) with hj | rfl
      · rw [if_neg (by omega)]
        obtain ⟨h3', key', sh', q1, q2, q3, q4, q5⟩ := hd j hj
        refine ⟨h3', key', sh', q1, ?_, q3, q4, ?_⟩
        · rw [← q2]
          show outKey { s'.ctx with outs := s'.ctx.outs.set i slot } j = _
          unfold outKey
          rw [List.getElem?_set_ne (by omega)]
        · rw [← q5, hout']
          have e := congrArg (fun l => slice (l.take (i * 256)) (j * 256) 256) p1
          have hj1 : (j + 1) * 256 ≤ i * 256 := Nat.mul_le_mul_right _ hj
          rw [slice_splice_before, slice_splice_before]
          · rw [hbl, ho]; omega
          · omega
          · rw [splice_length (by rw [hbl, ho]; omega), header_length, ho]; omega
          · omega
      · rw [if_pos rfl]
        refine ⟨m1, key, s.ctx.shares[j]'(by rw [w.shares]; exact hi), hm1, ?_, List.getElem?_eq_getElem _, ?_, ?_⟩
        · show outKey { s'.ctx with outs := s'.ctx.outs.set j slot } j = _
          unfold outKey
          rw [List.getElem?_set_self hol]
          obtain ⟨pid, t', rfl, rfl⟩ := hslot
          rfl
        · have : s.ctx.shares[j]'(by rw [w.shares]; exact hi) = s'.ctx.shares[j] := by simp only [esh]
          rw [this]
          exact hbox
        · have : s.ctx.shares[j]'(by rw [w.shares]; exact hi) = s'.ctx.shares[j] := by simp only [esh]
          rw [this, hout', slice_last p1 (by rw [List.length_take, ho]; omega), hsg]
          rfl
  · rintro s' ⟨hb, ho, -, -, ks, hk, hd⟩
    exact ⟨hb, ho, ks, hk, hd⟩

/-! ### Step 15 -/

theorem shareOf_eq {m : Bytes} (h : m.length = 33) : m = (shareOf m).index :: (shareOf m).value.toList := by
  cases m with
  | nil => simp at h
  | cons x m =>
    unfold shareOf
    simp only [List.headD_cons, List.tail_cons]
    rw [toB32_list (by simpa using h)]

theorem ok_step15Body {Q : Unit → PRun → Prop} {i : ℕ} (hin : (i + 1) * 256 ≤ input.length)
    (hts : i < s.ctx.lastTs.length) (hpk : i < s.ctx.sigPks.length) (hx : i < s.ctx.xshares.length)
    (hins : i < s.ctx.ins.length)
    (hQ : ∀ last k slot plain key, Opens input i key (shareOf plain) → Q () (after15 plain i last k slot s)) :
    Wp (step15Body clock log input i) True Bad Q s := by
  unfold step15Body
  dsimp only [hdrSize, msg8Size]
  rw [wp_bind, wp_dump (by omega), wp_bind, wp_sigPkOf (by exact hpk), wp_bind, wp_get, wp_bind]
  refine wp_recv (by omega) (by omega) hts fun r last k hr => ?_
  rw [wp_ite]
  refine ⟨fun h0 => ?_, fun h0 => ?_⟩
  · have := recvMsg_range hr
    show (64 + r : Int) ≠ 0
    omega
  rw [wp_bind, wp_lift_ok (rd_slice' (by omega)), wp_bind]
  refine ok_decrypt (s := _) (by decide) (by exact hins) fun dv slot1 o1 h1 => ?_
  obtain ⟨pid, ts, rfl, hts0⟩ := decryptNoise_first (slice_length (by omega)) h1
  rw [wp_bind, wp_lift_ok (rd_slice' (by omega)), wp_bind, wp_lift_ok (rd_slice' (by omega)), wp_bind, wp_get, wp_bind,
    wp_lift_ok (ld_ok (by simpa [received] using hins)), wp_bind, wp_lift_ok (a := ts.recvKey) (by
      simp only [received, List.getElem_set_self]
      rfl), wp_ite]
  refine ⟨fun hm => (by decide : (5 : Int) ≠ 0), fun hm => ?_⟩
  rw [wp_bind]
  refine ok_decrypt (s := _) (by decide) (by simpa [received] using hins) fun dv' slot2 o2 h2 => ?_
  simp only [received, List.getElem_set_self] at h2
  obtain ⟨m', rfl, hd, hl⟩ := decryptNoise_next h2
  rw [wp_setXshare (by exact hx)]
  have := hQ last k slot2 m' ts.recvKey ⟨not_not.1 hm, by
    rw [← shareOf_eq hl, ← hts0]
    exact hd⟩
  simp only [after15, received, List.set_set] at this ⊢
  exact this

/-- What step 15 leaves unchanged. -/
def base15 (c : PeerState) := (base c, c.commitments, c.outs, c.complaintsLen, c.myLen, c.step)

variable (G : Type) [Ristretto G]

theorem ok_step15 (w : PWF s.ctx) (hin : input.length = s.ctx.n.toNat * 256)
    (hout : s.out.length = 111 + (s.ctx.n.toNat + 1)) :
    Wp (step15 G clock log scratch input) True Bad (fun _ s' => base15 s'.ctx = base15 s.ctx ∧
      (∀ j < s.ctx.n.toNat, ∃ key share, s'.ctx.xshares[j]? = some share ∧ Opens input j key share) ∧
      ∃ r fails len, Dkg.verifyCommitments G scratch s.ctx.n s.ctx.t s.ctx.index
        (rows s.ctx.n.toNat s.ctx.t.toNat (s.ctx.commitments.take (s.ctx.n.toNat * s.ctx.t.toNat))) s'.ctx.xshares
        (List.replicate s.ctx.n.toNat 0) = .ok (r, fails, len) ∧
        ∃ k, s.ctx.ticks ≤ k ∧ k < s'.ctx.ticks ∧ s'.out = signedBy s.ctx 9 0xff (clock k) (len :: fails)) s := by
  set n := s.ctx.n.toNat with hn
  unfold step15
  rw [wp_bind, wp_get]
  dsimp only
  rw [wp_ite]
  refine ⟨fun _ => (by decide : (1 : Int) ≠ 0), fun _ => ?_⟩
  rw [wp_ite]
  refine ⟨fun _ => (by decide : (2 : Int) ≠ 0), fun _ => ?_⟩
  rw [wp_bind]
  refine wp_forN (fun m s' => base15 s'.ctx = base15 s.ctx ∧ PWF s'.ctx ∧ s'.out = s.out ∧ s.ctx.ticks ≤ s'.ctx.ticks ∧
      ∀ j < m, ∃ key share, s'.ctx.xshares[j]? = some share ∧ Opens input j key share)
    ⟨rfl, w, rfl, le_refl _, fun j hj => absurd hj (Nat.not_lt_zero j)⟩ ?_ ?_
  · rintro i s' hi ⟨hb, w', ho, htk, hI⟩
    have en : s'.ctx.n = s.ctx.n := congrArg (fun x => x.1.1) hb
    have hi' : i < s'.ctx.n.toNat := by rw [en]; exact hi
    have h2 : (i + 1) * 256 ≤ n * 256 := Nat.mul_le_mul_right _ hi
    refine ok_step15Body (by rw [hin]; exact h2) (by rw [w'.lastTs]; exact hi') (by rw [w'.sigPks]; exact hi')
      (by rw [w'.xshares]; exact hi') (by rw [w'.ins]; exact hi') fun last k slot plain key hop => ?_
    refine ⟨hb, ?_, ho, ?_, ?_⟩
    · exact { w' with
        lastTs := by simp [after15, received]; exact w'.lastTs
        ins := by simp [after15, received]; exact w'.ins
        xshares := by simp [after15, received]; exact w'.xshares }
    · show s.ctx.ticks ≤ s'.ctx.ticks + k
      omega
    · intro j hj
      rcases Nat.lt_or_eq_of_le (Nat.le_of_lt_succ hj) with hj | rfl
      · obtain ⟨key', sh', q1, q2⟩ := hI j hj
        refine ⟨key', sh', ?_, q2⟩
        show (s'.ctx.xshares.set i (shareOf plain))[j]? = _
        rw [List.getElem?_set_ne (by omega), q1]
      · refine ⟨key, shareOf plain, ?_, hop⟩
        show (s'.ctx.xshares.set j (shareOf plain))[j]? = _
        rw [List.getElem?_set_self (by rw [w'.xshares]; exact hi')]
  · rintro s' ⟨hb, w', ho, htk, hI⟩
    have hb' := hb
    simp only [base15, base, Prod.mk.injEq] at hb'
    obtain ⟨⟨en, et, ei, es, ek, esh⟩, ec, eo, ecl, eml, est⟩ := hb'
    rw [wp_bind, wp_get, wp_bind, wp_lift_ok (rd_slice' (by rw [ec, w.commitments, Nat.zero_add])), wp_bind]
    refine wp_lift_of trivial fun v hv => ?_
    obtain ⟨r, fails, len⟩ := v
    obtain ⟨hfl, hlen⟩ := verifyAll_length G hv
    rw [List.length_replicate] at hfl hlen
    have hlen : len.toNat ≤ n := hlen (Nat.zero_le _)
    have hol : s'.out.length = 111 + (n + 1) := by rw [ho, hout]
    have hs9 : msg9Size s'.ctx.n = 111 + (n + 1) := by rw [msg9Size, en]
    dsimp only
    have e5 : (splice s'.out (hdrSize + 1) fails).length = s'.out.length :=
      splice_length (by simp only [hdrSize]; omega)
    have e6 : (splice (splice s'.out (hdrSize + 1) fails) hdrSize [len]).length = s'.out.length := by
      rw [splice_length (by rw [e5]; simp only [hdrSize, List.length_cons, List.length_nil]; omega), e5]
    rw [wp_bind, wp_setOut (by simp only [hdrSize]; omega), wp_bind, wp_setOut (by
        show _ ≤ (splice s'.out (hdrSize + 1) fails).length
        simp only [hdrSize, List.length_cons, List.length_nil]; simp only [hdrSize] at e5; omega), wp_bind,
      wp_dumpOut (by
        show _ ≤ (splice (splice s'.out (hdrSize + 1) fails) hdrSize [len]).length
        rw [e6]; simp only [hdrSize]; omega), wp_bind,
      wp_send (by
        show _ ≤ (splice (splice s'.out (hdrSize + 1) fails) hdrSize [len]).length
        rw [e6]; omega), wp_bind, wp_dumpOut (by
        show _ ≤ (splice _ _ _).length
        rw [splice_length (by
          rw [header_length]
          show _ ≤ (splice (splice s'.out (hdrSize + 1) fails) hdrSize [len]).length
          rw [e6]; omega)]
        show _ ≤ (splice (splice s'.out (hdrSize + 1) fails) hdrSize [len]).length
        rw [e6]; omega)]
    rw [wp_pure]
    refine ⟨hb, hI, r, fails, len, ?_, s'.ctx.ticks, htk, Nat.lt_succ_self _, ?_⟩
    · rw [ec, en, ei] at hv
      unfold slice at hv
      rw [List.drop_zero] at hv
      exact hv
    show splice (splice (splice s'.out 112 fails) 111 [len]) 0 (header s'.ctx (clock s'.ctx.ticks) (msg9Size s'.ctx.n) 9 255) = _
    have hh := header_length s'.ctx (clock s'.ctx.ticks) (msg9Size s'.ctx.n) 9 255
    have e7 : splice s'.out 112 fails = s'.out.take 112 ++ fails := by
      unfold splice
      rw [List.drop_of_length_le (by omega), List.append_nil]
    have e8 : splice (s'.out.take 112 ++ fails) 111 [len] = s'.out.take 111 ++ (len :: fails) := by
      unfold splice
      rw [List.take_append_of_le_length (by simp; omega), List.take_take, List.drop_left' (by simp; omega)]
      simp
    rw [e7, e8, splice_zero (by rw [hh]; simp; omega), header_append _ _ _ _ _ _ (by rw [hs9, List.length_cons, hfl])]
    unfold signedBy
    rw [ei, es, ek]

/-! ### Step 17a -/

theorem ok_step17a (w : PWF s.ctx) (h7 : s.ctx.step = 7) (hin : input.length = 0)
    (hout : s.out.length = peerOutputSize s.ctx) (hc : 0 < s.ctx.complaintsLen) (hm : s.ctx.myLen.toNat ≤ s.ctx.n.toNat) :
    Wp (step17a clock log input) True Bad (fun _ s' => s'.out = if s.ctx.against = [] then [] else
      signedBy s.ctx 11 0 (clock s.ctx.ticks) (s.ctx.against.flatMap (entry s.ctx))) s := by
  have hsz : peerOutputSize s.ctx = if s.ctx.myLen > 0 then 111 + s.ctx.myLen.toNat * 33 else 0 := by
    unfold peerOutputSize
    rw [h7]
    dsimp only
    rw [if_pos hc]
    rfl
  have hal : s.ctx.against.length = s.ctx.myLen.toNat := by
    unfold PeerState.against
    rw [List.length_take, w.mine]
    omega
  unfold step17a
  rw [wp_bind, wp_get, wp_ite]
  refine ⟨fun _ => (by decide : (1 : Int) ≠ 0), fun _ => ?_⟩
  rw [wp_ite]
  refine ⟨fun _ => (by decide : (2 : Int) ≠ 0), fun _ => ?_⟩
  rw [wp_ite]
  refine ⟨fun h0 => ?_, fun h0 => ?_⟩
  · rw [wp_pure]
    have : s.ctx.against = [] := by
      rw [← List.length_eq_zero_iff, hal]
      rw [hout, hsz] at h0
      split at h0
      · omega
      · rename_i h
        have : ¬ (0 : UInt8).toNat < s.ctx.myLen.toNat := h
        simpa using this
    rw [if_pos this]
    exact List.length_eq_zero_iff.1 h0
  · have hpos : s.ctx.myLen > 0 := by
      by_contra h
      rw [hout, hsz, if_neg h] at h0
      exact h0 rfl
    rw [if_pos hpos] at hsz
    have hpos' : 0 < s.ctx.myLen.toNat := hpos
    have hne : s.ctx.against ≠ [] := by
      intro h
      rw [h] at hal
      simp at hal
      omega
    rw [if_neg hne, wp_bind]
    refine wp_forN (fun i s' => s'.ctx = s.ctx ∧ s'.out.length = s.out.length ∧
        slice s'.out 111 (i * 33) = (s.ctx.against.take i).flatMap (entry s.ctx)) ⟨rfl, rfl, by simp [slice]⟩ ?_ ?_
    · rintro i s' hi ⟨hctx, hl, hI⟩
      have hi33 : (i + 1) * 33 ≤ s.ctx.myLen.toNat * 33 := Nat.mul_le_mul_right _ hi
      unfold step17aBody
      rw [wp_bind, wp_get, hctx, wp_bind, wp_lift_ok (ld_ok (by rw [w.mine]; omega))]
      dsimp only [hdrSize]
      have l1 : (splice s'.out (111 + i * 33) [s.ctx.mine[i]'(by rw [w.mine]; omega)]).length = s'.out.length :=
        splice_length (by rw [hl, hout, hsz, List.length_singleton]; omega)
      rw [wp_bind, wp_setOut (by rw [hl, hout, hsz, List.length_singleton]; omega), wp_ite]
      refine ⟨fun _ => by rw [wp_lift]; trivial, fun hne0 => ?_⟩
      rw [wp_bind]
      refine wp_lift_of trivial fun slot hslot => ?_
      rw [wp_bind]
      refine wp_lift_of trivial fun key hkey => ?_
      rw [wp_setOut (by
        show _ ≤ (splice s'.out (111 + i * 33) [_]).length
        rw [l1, hl, hout, hsz, Vector.length_toList]; omega)]
      set x := s.ctx.mine[i]'(by rw [w.mine]; omega) with hx
      have hent : entry s.ctx x = [x] ++ key.toList := by
        unfold entry outKey
        have hs' : s.ctx.outs[x.toNat - 1]? = some slot := by
          unfold ld at hslot
          split at hslot
          · rename_i h
            cases hslot
            exact h
          · cases hslot
        rw [hs']
        unfold keyAt at hkey
        rw [C.bind_eq_ok] at hkey
        obtain ⟨v, hv, hkey⟩ := hkey
        cases v with
        | none => cases hkey
        | some sn =>
          have : slot = .live sn := by
            cases slot with
            | null => cases hv
            | freed => cases hv
            | uninit => cases hv
            | live y => cases hv; rfl
          subst this
          dsimp only at hkey ⊢
          split at hkey
          · cases hkey
          · rename_i k hk
            cases hkey
            rw [hk]
            rfl
      refine ⟨hctx, ?_, ?_⟩
      · dsimp only
        rw [splice_length (by rw [l1, hl, hout, hsz, Vector.length_toList]; omega), l1, hl]
      · dsimp only
        rw [show 111 + i * 33 + 1 = (111 + i * 33) + 1 from rfl,
          Honest.splice_two (x := [x]) (y := key.toList) (k := 1) rfl (by rw [hl, hout, hsz, Vector.length_toList]; omega),
          ← hent]
        have hel : (entry s.ctx x).length = 33 := by rw [hent]; simp
        rw [Nat.add_mul, Nat.one_mul, slice_add, slice_splice_before (by rw [hel, hl, hout, hsz]; omega) (by omega), hI]
        have := slice_splice_same (buf := s'.out) (off := 111 + i * 33) (b := entry s.ctx x) (by rw [hel, hl, hout, hsz]; omega)
        rw [hel] at this
        rw [this]
        have hg : s.ctx.against[i]? = some x := by
          unfold PeerState.against
          rw [List.getElem?_take_of_lt hi, List.getElem?_eq_getElem]
        rw [List.take_add_one, hg]
        simp
    · rintro s' ⟨hctx, hl, hI⟩
      rw [wp_bind, wp_send (by rw [hl, hout, hsz]; omega), wp_bind, wp_dumpOut (by
        rw [splice_length (by rw [header_length, hl, hout, hsz]; omega), hl, hout]; omega), wp_bind, wp_setCtx, wp_pure]
      dsimp only
      rw [hctx]
      have e1 : s'.out = s'.out.take 111 ++ s.ctx.against.flatMap (entry s.ctx) := by
        rw [List.take_of_length_le (by omega)] at hI
        rw [← hI]
        have : slice s'.out 111 (s.ctx.myLen.toNat * 33) = s'.out.drop 111 :=
          List.take_of_length_le (by rw [List.length_drop, hl, hout, hsz]; omega)
        rw [this, List.take_append_drop]
      have e2 : (s.ctx.against.flatMap (entry s.ctx)).length = s.ctx.myLen.toNat * 33 := by
        have := congrArg List.length e1
        rw [List.length_append, List.length_take, hl, hout, hsz] at this
        omega
      rw [e1, splice_zero (by rw [header_length, List.length_take, hl, hout, hsz]; omega),
        header_append _ _ _ _ _ _ (by rw [hsz, e2])]

/-! ### Steps 9 and 11 -/

theorem ok_step911Body {Q : Unit → PRun → Prop} {i : ℕ} (hin : (i + 1) * 159 ≤ input.length)
    (hts : i < s.ctx.lastTs.length) (hpk : i < s.ctx.sigPks.length) (houts : i < s.ctx.outs.length)
    (hQ : ∀ last k slot, Q () (after911 slot i last k s)) : Wp (step911Body clock log input i) True Bad Q s := by
  unfold step911Body
  dsimp only [hdrSize, msg5Size]
  rw [wp_bind, wp_dump (by omega), wp_bind, wp_sigPkOf (by exact hpk), wp_bind, wp_get, wp_bind]
  refine wp_recv (by omega) (by omega) hts fun r last k hr => ?_
  rw [wp_ite]
  refine ⟨fun h0 => ?_, fun h0 => ?_⟩
  · have := recvMsg_range hr
    show (64 + r : Int) ≠ 0
    omega
  rw [wp_bind, wp_lift_ok (rd_slice' (by omega))]
  unfold finishSession getDev
  rw [wp_bind, wp_bind, wp_get, wp_bind]
  refine wp_lift_of trivial fun v hv => ?_
  cases v with
  | none => exact wp_lift_of trivial fun _ h => by cases h
  | some dv =>
  rw [wp_pure, wp_bind, wp_get, wp_bind, wp_lift_ok (ld_ok (by exact houts)), wp_bind]
  refine wp_lift_of trivial fun v hv => ?_
  obtain ⟨r', slot⟩ := v
  dsimp only
  rw [wp_setOuts (by exact houts)]
  exact hQ last k slot

theorem ok_step911 (w : PWF s.ctx) : Wp (step911 G clock log mlock rnd input) True Bad (fun _ s' => base s'.ctx =
      (s.ctx.n, s.ctx.t, s.ctx.index, s.ctx.sid, s.ctx.sigSk, s'.ctx.shares) ∧
      ∃ cs, Dkg.start G mlock s.ctx.n s.ctx.t rnd.coeff
        (List.replicate s.ctx.t.toNat zero32) s.ctx.shares = .ok (0, cs, s'.ctx.shares) ∧
      ∃ k, s.ctx.ticks ≤ k ∧ k < s'.ctx.ticks ∧ s'.out = signedBy s.ctx 6 0xff (clock k) (flat cs)) s := by
  have hs6 : msg6Size s.ctx.t = 111 + 32 * s.ctx.t.toNat := rfl
  unfold step911
  rw [wp_bind, wp_get, wp_ite]
  refine ⟨fun _ => (by decide : (1 : Int) ≠ 0), fun hin => ?_⟩
  rw [wp_ite]
  refine ⟨fun _ => (by decide : (2 : Int) ≠ 0), fun hout => ?_⟩
  have hout := not_not.1 hout
  have hin : input.length = 159 * s.ctx.n.toNat := not_not.1 hin
  rw [wp_bind]
  refine wp_forN (fun m s' => base s'.ctx = base s.ctx ∧ PWF s'.ctx ∧ s'.out = s.out ∧ s.ctx.ticks ≤ s'.ctx.ticks)
    ⟨rfl, w, rfl, le_refl _⟩ ?_ ?_
  · rintro i s' hi ⟨hb, w', ho, htk⟩
    have en : s'.ctx.n = s.ctx.n := congrArg (fun x => x.1) hb
    have hi' : i < s'.ctx.n.toNat := by rw [en]; exact hi
    have h2 : (i + 1) * 159 ≤ s.ctx.n.toNat * 159 := Nat.mul_le_mul_right _ hi
    refine ok_step911Body (by rw [hin, Nat.mul_comm 159]; exact h2) (by rw [w'.lastTs]; exact hi') (by rw [w'.sigPks]; exact hi')
      (by rw [w'.outs]; exact hi') fun last k slot => ?_
    refine ⟨hb, ?_, ho, ?_⟩
    · exact { w' with
        lastTs := by simp [after911, received]; exact w'.lastTs
        outs := by simp [after911, received]; exact w'.outs }
    · show s.ctx.ticks ≤ s'.ctx.ticks + k
      omega
  · rintro s' ⟨hb, w', ho, htk⟩
    have hb' := hb
    simp only [base, Prod.mk.injEq] at hb'
    obtain ⟨en, et, ei, es, ek, esh⟩ := hb'
    rw [wp_bind, wp_get, wp_bind]
    refine wp_lift_of trivial fun v hv => ?_
    obtain ⟨r, cs, ss⟩ := v
    dsimp only
    rw [wp_ite]
    refine ⟨fun _ => (by decide : (4 : Int) ≠ 0), fun h => ?_⟩
    have h : r = 0 := by simpa using h
    subst h
    have hcl := dkg_start_commitments G hv
    rw [List.length_replicate] at hcl
    have hfl : (flat cs).length = 32 * s.ctx.t.toNat := by rw [flat_length, hcl]
    have hol : s'.out.length = 111 + 32 * s.ctx.t.toNat := by rw [ho, hout, hs6]
    rw [wp_bind, wp_setCtx, wp_bind, wp_setOut (by rw [hfl]; show _ ≤ s'.out.length; simp only [hdrSize]; omega), wp_bind,
      wp_send (by
        show _ ≤ (splice s'.out _ _).length
        rw [splice_length (by rw [hfl, hol]; simp only [hdrSize]; omega)]; omega), wp_bind]
    have e : (splice s'.out hdrSize (flat cs)).length = s'.out.length :=
      splice_length (by rw [hfl, hol]; simp only [hdrSize]; omega)
    rw [wp_dumpOut (by
      show _ ≤ (splice _ _ _).length
      rw [splice_length (by rw [header_length]; show _ ≤ (splice s'.out _ _).length; omega)]
      show _ ≤ (splice s'.out _ _).length
      rw [e, hol, msg6Size]; omega)]
    rw [wp_pure]
    refine ⟨?_, cs, ?_, s'.ctx.ticks, htk, Nat.lt_succ_self _, ?_⟩
    · simp only [base, en, et, ei, es, ek]
    · rw [en, esh] at hv
      exact hv
    show splice (splice s'.out 111 (flat cs)) 0 (header s'.ctx (clock s'.ctx.ticks) (msg6Size s.ctx.t) 6 255) = _
    have hh := header_length s'.ctx (clock s'.ctx.ticks) (msg6Size s.ctx.t) 6 255
    have e5 : splice s'.out 111 (flat cs) = s'.out.take 111 ++ flat cs := by
      unfold splice
      rw [List.drop_of_length_le (by omega), List.append_nil]
    rw [e5, splice_zero (by rw [hh]; simp; omega), header_append _ _ _ _ _ _ (by rw [hs6, hfl])]
    unfold signedBy
    rw [ei, es, ek]

end Peer

/-! ### The calls -/

section Calls

variable [Signing] [Mac] (G : Type) [Ristretto G] {clock : ℕ → UInt64} {log mlock : Bool} {scratch : B32} {rnd : Rnd}
  {c c' : PeerState} {input out o : Bytes}

/-- A successful call has buffers of the right sizes. -/
theorem call_lengths (h9 : c.step ≤ 9) (h : peerNext G clock log mlock scratch rnd c input out = .ok (0, c', o)) :
    input.length = peerInputSize c ∧ out.length = peerOutputSize c := by
  by_contra hne
  obtain ⟨s, hs, -⟩ := peerNext_elim G (Peer.wp_wrong G (clock := clock) (log := log) (mlock := mlock)
    (scratch := scratch) (rnd := rnd) (input := input) (s := ⟨c, out⟩) h9 (by dsimp only; tauto)) h
  rcases hs with ⟨h, -⟩ | h
  · rcases h with h | h <;> exact absurd h (by decide)
  · exact h

/-- What holds after a successful run of the handler. -/
theorem call_ok {Q : Int → PRun → Prop}
    (hw : Wp (Peer.handler G clock log mlock scratch rnd input c.step) True Peer.Bad Q ⟨c, out⟩)
    (h : peerNext G clock log mlock scratch rnd c input out = .ok (0, c', o)) :
    ∃ s, Q 0 s ∧ c' = pafter 0 s.ctx ∧ o = s.out := by
  obtain ⟨s, hs, h1, h2⟩ := peerNext_elim G hw h
  rcases hs with h | h
  · exact absurd rfl h
  · exact ⟨s, h, h1, h2⟩

end Calls

section Props

open H

variable [Signing] [Mac]

theorem flat_commitments {t : ℕ} {cs : List B32} (hl : cs.length = t) (hd : Bytes) (h1 : hd.length = 111) :
    sentCommitments t (hd ++ Peer.flat cs) = cs := by
  subst hl
  have := Honest.toB32s_flat cs
  unfold sentCommitments
  rw [← Peer.toB32s_slice]
  have e : slice (hd ++ Peer.flat cs) 111 (32 * cs.length) = Peer.flat cs := by
    unfold slice
    rw [← h1, List.drop_left, List.take_of_length_le (by rw [Peer.flat_length])]
  rw [e, this]

theorem signedBy_split (c : PeerState) (msgno rcp : UInt8) (now : UInt64) (body : Bytes) :
    ∃ hd : Bytes, hd.length = 111 ∧ signedBy c msgno rcp now body = hd ++ body :=
  ⟨Peer.header c now (111 + body.length) msgno rcp, Peer.header_length _ _ _ _ _,
    (Peer.header_append c now msgno rcp body _ rfl).symm⟩

theorem signedBy_drop (c : PeerState) (msgno rcp : UInt8) (now : UInt64) (body : Bytes) :
    (signedBy c msgno rcp now body).drop 111 = body := by
  obtain ⟨hd, h1, h2⟩ := signedBy_split c msgno rcp now body
  rw [h2, ← h1, List.drop_left]

theorem idx_val {j n : ℕ} (hj : j < n) (hn : n ≤ 254) : (idx j).toNat = j + 1 := by
  unfold idx
  rw [UInt8.toNat_ofNat']
  omega

theorem slice_mid {a b c : Bytes} {i k : ℕ} (h1 : a.length = i) (h2 : b.length = k) : slice (a ++ b ++ c) i k = b := by
  subst h1 h2
  unfold slice
  rw [List.append_assoc, List.drop_left, List.take_left]

/-- A share that was dealt is opened by the key of the session. -/
theorem dealt_opens {c c' : PeerState} {o : Bytes} {j : ℕ} {now : UInt64} (h : Dealt c c' o j now) :
    ∃ key share, outKey c' j = some key ∧ c.shares[j]? = some share ∧ Opens o j key share := by
  obtain ⟨h3, key, share, e3, e1, e2, hb, hs⟩ := h
  refine ⟨key, share, e1, e2, ?_⟩
  generalize hbx : NoiseCrypto.aeadEnc key 0 [] (share.index :: share.value.toList) = box at *
  obtain ⟨hd, d1, d2⟩ := signedBy_split c 8 (idx j) now (h3 ++ box ++ (Mac.auth key box).toList)
  rw [d2] at hs
  have hbox : boxIn o j = box := by
    unfold boxIn
    rw [← slice_sub (k := 256) (by omega), hs, ← List.append_assoc, ← List.append_assoc]
    exact slice_mid (by rw [List.length_append, d1, e3]) hb
  have hmac : macIn o j = (Mac.auth key box).toList := by
    unfold macIn
    rw [← slice_sub (k := 256) (by omega), hs, ← List.append_assoc, ← List.append_assoc, ← List.append_nil (_ ++ _)]
    exact slice_mid (by simp only [List.length_append, d1, e3, hb]) (by simp)
  exact ⟨by rw [hmac, hbox], by rw [hbox, ← hbx, NoiseCrypto.dec_enc]⟩

namespace Peer

theorem len_step17 {clock : ℕ → UInt64} {log : Bool} {input : Bytes} {s : PRun} (h : s.ctx.step = 6) :
    Wp (step17 clock log input) True Bad
      (fun _ s' => (s'.ctx.step = 6 ∧ 0 < s'.ctx.complaintsLen) ∨ (s'.ctx.step = 7 ∧ s'.ctx.complaintsLen = 0)) s := by
  have F := stamps_step
  unfold step17
  rw [wp_bind, wp_get]
  dsimp only
  rw [wp_ite]
  refine ⟨fun _ => (by decide : (1 : Int) ≠ 0), fun _ => ?_⟩
  rw [wp_ite]
  refine ⟨fun _ => (by decide : (2 : Int) ≠ 0), fun _ => ?_⟩
  rw [wp_bind]
  refine wp_of_both (R := Keep (·.step)) (pres_dump _ _ _ _) (err_dump _ _ _ _) (fun _ _ _ h => h)
    fun _ s1 h1 _ => ?_
  rw [wp_bind]
  refine wp_of_both (pres_recvTp F _ _ _ _) (err_recvTp _ _ _ _) (fun _ _ _ h => h) fun r s2 h2 hr => ?_
  rw [wp_ite]
  refine ⟨fun h => ?_, fun _ => ?_⟩
  · show (16 + r : Int) ≠ 0
    omega
  rw [wp_bind, wp_transcript, wp_bind]
  have hb : Pres (Keep fun c => c.step) (fun _ => True)
      (H.forN s.ctx.n.toNat (step17Body clock log input s.ctx.n)) := by
    unfold step17Body step17Inner
    set f : PeerState → ℕ := fun c => c.step
    ppres [pres_addComplaint (fun _ _ _ _ => rfl) _, pres_addMine (fun _ _ _ _ => rfl) _]
  refine wp_of_both hb (err_forN fun i => err_step17Body _ i) (fun _ _ _ h => h) fun _ s3 h3 _ => ?_
  have e3 : s3.ctx.step = s.ctx.step := h3.1.trans (h2.1.trans h1.1)
  rw [wp_bind, wp_get, wp_ite]
  refine ⟨fun h0 => ?_, fun h0 => ?_⟩
  · rw [wp_bind, wp_setCtx]
    exact .inr ⟨by show s3.ctx.step + 1 = 7; omega, h0⟩
  · exact .inl ⟨by rw [e3, h], UInt16.pos_iff_ne_zero.2 h0⟩

end Peer

end Props

end TpDkg

end Verif
