import Verif.Base.Bytes

/-!
# Independent description of the messages

A message is a signature, the header fields in network byte order and a body.
-/

namespace Verif.Spec.Wire

/-- Header fields. -/
structure Header where
  msgno : UInt8
  len : UInt32
  frm : UInt8
  rcp : UInt8
  ts : UInt64
  sid : B32

/-- Serialisation of a header. -/
def Header.encode (h : Header) : Bytes :=
  [h.msgno] ++ beBytes 4 h.len.toNat ++ [h.frm] ++ [h.rcp] ++ beBytes 8 h.ts.toNat ++ h.sid.toList

/-- Serialisation of a message. -/
def encode (sig : B64) (h : Header) (body : Bytes) : Bytes := sig.toList ++ h.encode ++ body

/-- The timestamp `ts` is acceptable: before the first message of a sender (`last = 0`) it is at most `eps` away from
the clock, later it is at most `eps` ahead of the last one. -/
def InWindow (now eps last ts : UInt64) : Prop :=
  if last = 0 then now.toNat ≤ ts.toNat + eps.toNat ∧ ts.toNat ≤ now.toNat + eps.toNat
  else last.toNat ≤ ts.toNat ∧ ts.toNat ≤ last.toNat + eps.toNat

/-- The additions and subtractions of the window do not wrap around. -/
def NoWrap (now eps last : UInt64) : Prop :=
  if last = 0 then eps.toNat ≤ now.toNat ∧ now.toNat + eps.toNat < 2 ^ 64
  else last.toNat + eps.toNat < 2 ^ 64

end Verif.Spec.Wire
