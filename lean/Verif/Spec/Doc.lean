import Verif.Base.Bytes

/-!
# What `/repo/docs/tp-dkg.txt` says

Written from the text of the documentation, without the code.
-/

namespace Verif.Spec.Doc

/-- The bytes of a text. -/
def ascii (s : String) : Bytes := s.toList.map fun c => UInt8.ofNat c.toNat

/-- "The transcript is a hash, that is initialized with the string", tp-dkg.txt:120-124. -/
def init : Bytes := ascii "tp dkg session transcript"

/-- `update_ts`, tp-dkg.txt:140-146, with "the canonical 32bit size of the message", tp-dkg.txt:127-129. -/
def update (state msg sig : Bytes) : Bytes :=
  state ++ beBytes 4 msg.length ++ msg ++ beBytes 4 sig.length ++ sig

/-- `dst_str`, tp-dkg.txt:310. -/
def dstStr (name : Bytes) : Bytes := ascii "TP DKG for protocol " ++ name

/-- The condition on the timestamp of a message, tp-dkg.txt:212. -/
def Fresh (ref timeout ts : ℕ) : Prop := ref ≤ ts ∧ ts < ref + timeout

/-- The condition on the timestamp in `recv_msg`, tp-dkg.txt:246. -/
def FreshRecv (ref timeout ts : ℕ) : Prop := ref < ts ∧ ts < ref + timeout

/-- "If any peer complaints about more than t peers, that complaining peer is a cheater", tp-dkg.txt:662-663. -/
def TooMany (t : ℕ) (accused : List UInt8) : Prop := t < accused.dedup.length

end Verif.Spec.Doc
