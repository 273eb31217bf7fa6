import Verif.Spec.Tp
import Verif.Proofs.Dkg

/-!
# What a complaint is about

The share that a dealer sent to a complainer, judged with a revealed key, and the meaning of the reports.
-/

namespace Verif.TpDkg

open Wire Spec.Wire Spec Ristretto

variable [Signing] [NoiseCrypto] [Mac] (G : Type) [Ristretto G]

/-- The message with the share of the dealer `i` (from 0) for the peer with index `x`, as stored, is authentic. Its
timestamp is not so far in the future that the window wraps around. -/
def Stored (c : TP) (i : ℕ) (x : UInt8) : Prop :=
  ∃ sig h body, slice c.encShares ((i * c.n.toNat + (x.toNat - 1)) * 256) 256 = encode sig h body ∧ h.len.toNat = 256 ∧
    h.msgno = 8 ∧ h.frm.toNat = i + 1 ∧ h.rcp = x ∧ h.sid = c.sid ∧
    Signing.verify (c.sigPks.getD i zero32) h.encode sig = true ∧ 0 < h.ts.toNat ∧ h.ts.toNat + c.eps.toNat < 2 ^ 64

/-- The body of this message. -/
def storedBody (c : TP) (i : ℕ) (x : UInt8) : Bytes :=
  slice c.encShares ((i * c.n.toNat + (x.toNat - 1)) * 256 + 111) 145

/-- The commitments of the dealer `i` (from 0). -/
def dealt (c : TP) (i : ℕ) : List B32 := slice c.commitments (i * c.t.toNat) c.t.toNat

/-- With the key revealed by the dealer `i` the share for `x` is right: the key is the one committed to, the ciphertext
decrypts to a share with index `x`, and its value satisfies Feldman's equation for the commitments of the dealer. -/
def ShareRight (c : TP) (i : ℕ) (x : UInt8) (key : B32) : Prop :=
  (Mac.auth key (slice (storedBody c i x) 64 49)).toList = slice (storedBody c i x) 113 32 ∧
  ∃ value : B32, NoiseCrypto.aeadDec key 0 [] (slice (storedBody c i x) 64 49) = some (x :: value.toList) ∧
    ∃ Cs : List G, dealt c i = Cs.map enc ∧ (∀ c ∈ Cs.drop 1, c ≠ 0) ∧
      maskedVal value • (base : G) = commitEval (point x) Cs

/-- The peer to blame for a report, from the places where the reports are written. -/
def culprit (c : Cheater) : UInt8 :=
  if c.step = 18 ∧ (c.error = 128 ∨ c.error = 7) then c.other else c.peer

/-- The text says what the report is about, from the places where the reports are written. -/
def Fits (c : Cheater) (t : Text) : Prop :=
  if c.step = 18 then
    if 16 < c.error ∧ c.error < 32 then t = .shareMsg c.peer c.other (c.error - 16)
    else if 32 < c.error ∧ c.error < 64 then t = .keyMsg c.peer c.other (c.error - 32)
    else if c.error = 3 then t = .hmac c.peer c.other
    else if c.error = 4 then False
    else if c.error = 5 then 0 ≤ c.invalidIndex ∧ t = .shareIndex c.peer (UInt8.ofNat c.invalidIndex.toNat) c.other.toNat
    else if c.error = 6 then t = .happy c.peer c.other
    else if c.error = 7 then t = .notVerified c.other c.peer
    else if c.error = 127 then t = .invalidParams c.peer c.other
    else if c.error = 128 then t = .falselyAccused c.peer c.other
    else t = .caught c.peer c.other
  else if c.step = 20 then
    if c.error = 1 then t = .mismatch c.peer
    else t = .notValidated 20 c.peer c.other (c.error - 1)
  else if c.step = 16 ∧ c.error = 6 then t = .tooMany
  else if c.step = 16 ∧ c.error = 7 then t = .invalidPeer c.peer c.other
  else if c.step = 16 ∧ c.error = 8 then t = .duplicate c.peer c.other
  else t = .notValidated c.step c.peer c.other (c.error - 64)

end Verif.TpDkg
