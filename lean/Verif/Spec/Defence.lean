import Verif.Spec.Agreement
import Verif.Proofs.Dkg

/-!
# What a peer answers to complaints and what it complains about
-/

namespace Verif.TpDkg

open Wire Spec.Wire Spec Ristretto

/-- The session key of the session that a peer has opened with peer `j` (from 0). -/
def outKey (c : PeerState) (j : ℕ) : Option B32 :=
  match c.outs[j]? with
  | some (.live sn) => Noise.sessionGetKey sn
  | _ => none

/-- The encrypted share in the `j`-th message of a sequence of messages with shares. -/
def boxIn (m : Bytes) (j : ℕ) : Bytes := slice m (j * 256 + 175) 49

/-- The commitment to the key in it. -/
def macIn (m : Bytes) (j : ℕ) : Bytes := slice m (j * 256 + 224) 32

/-- A message that is signed with the key of the peer, from it and for this session. -/
def signedBy [Signing] (c : PeerState) (msgno rcp : UInt8) (now : UInt64) (body : Bytes) : Bytes :=
  let h : Header := ⟨msgno, UInt32.ofNat (111 + body.length), c.index, rcp, now, c.sid⟩
  encode (Signing.sign c.sigSk h.encode) h body

/-- The commitments in a message with commitments. -/
def sentCommitments (t : ℕ) (m : Bytes) : List B32 := (List.range t).map fun k => toB32 (slice m (111 + 32 * k) 32)

/-- The peers named in a message with complaints. -/
def namedIn (m : Bytes) : List UInt8 := slice m 112 (announcedIn m)

/-- The message with a share for peer `j` (from 0), sent at the time `now`: any last message of the handshake, the share
encrypted with the key of the session as the first message, and the code of the ciphertext under this key. -/
def Dealt [Signing] [NoiseCrypto] [Mac] (c c' : PeerState) (o : Bytes) (j : ℕ) (now : UInt64) : Prop :=
  ∃ h3 key share, h3.length = 64 ∧ outKey c' j = some key ∧ c.shares[j]? = some share ∧
    let box := NoiseCrypto.aeadEnc key 0 [] (share.index :: share.value.toList)
    box.length = 49 ∧ slice o (j * 256) 256 = signedBy c 8 (idx j) now (h3 ++ box ++ (Mac.auth key box).toList)

/-- The key opens the `j`-th encrypted share of a sequence of messages with shares: it is the key committed to, and the
ciphertext decrypts to the share. -/
def Opens [NoiseCrypto] [Mac] (m : Bytes) (j : ℕ) (key : B32) (share : Share) : Prop :=
  (Mac.auth key (boxIn m j)).toList = macIn m j ∧
    NoiseCrypto.aeadDec key 0 [] (boxIn m j) = some (share.index :: share.value.toList)

/-- An entry of an answer to complaints: the index of the complainer and the key of the session with it. -/
def entry (c : PeerState) (x : UInt8) : Bytes := x :: ((outKey c (x.toNat - 1)).getD zero32).toList

/-- Times of `n` readings of the clock, one after the other, between two states. -/
def Readings (c c' : PeerState) (n : ℕ) (ks : ℕ → ℕ) : Prop :=
  (∀ j < n, c.ticks ≤ ks j ∧ ks j < c'.ticks) ∧ ∀ i j, i < j → j < n → ks i < ks j

variable (G : Type) [Ristretto G]

/-- The share with this value for the peer with index `x` is right: it satisfies Feldman's equation for the commitments,
which are encodings of group elements, the first one possibly of 0. -/
def RightFor (x : UInt8) (cs : List B32) (value : B32) : Prop :=
  ∃ Cs : List G, cs = Cs.map enc ∧ (∀ c ∈ Cs.drop 1, c ≠ 0) ∧ maskedVal value • (base : G) = commitEval (point x) Cs

end Verif.TpDkg
