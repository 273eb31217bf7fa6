import Verif.Model.PyNoise
import Verif.Spec.Noise

/-!
# Two Python programs that talk over a Noise session

Each end is a session object of the wrapper. Messages go over a wire in each direction.
-/

namespace Verif.Spec.PyLink

open Py PyNoise Noise
open Spec.NoiseXK (other)

/-- The bytes that a message stands for: a string is sent in UTF-8. -/
def content : Val → Option Bytes
  | .bytes b => some b
  | .str s => utf8 s
  | _ => none

/-- A text argument: left out, `bytes` or a string. -/
def TextArg : Option Val → Prop
  | none => True
  | some (.bytes _) => True
  | some (.str _) => True
  | _ => False

structure Link where
  side : Role → Option PySession
  /-- ciphertexts of this side on the way to the other one -/
  wire : Role → List Bytes
  /-- messages that `send_msg` accepted, and messages that `read_msg` returned on the other side -/
  sent : Role → List Bytes
  got : Role → List Bytes
  /-- some `read_msg` raised an exception -/
  raised : Bool

inductive Ev
  | send (who : Role) (msg : Val)
  /-- the oldest ciphertext of the side is read by the other one -/
  | deliver (who : Role)

section
variable [Hashes] [NoiseCrypto]

def Link.step (l : Link) : Ev → C Link
  | .send r v => do
    match ← sendMsg (l.side r) v with
    | (some c, s) => .ok { l with
        side := Function.update l.side r s
        wire := Function.update l.wire r (l.wire r ++ [c])
        sent := Function.update l.sent r (l.sent r ++ (content v).toList) }
    | (none, s) => .ok { l with side := Function.update l.side r s }
  | .deliver r =>
    match l.wire r with
    | [] => .ok l
    | c :: rest => do
      match ← readMsg (l.side (other r)) c with
      | (some m, s) => .ok { l with
          side := Function.update l.side (other r) s
          wire := Function.update l.wire r rest
          got := Function.update l.got r (l.got r ++ [m]) }
      | (none, s) => .ok { l with
          side := Function.update l.side (other r) s
          wire := Function.update l.wire r rest
          raised := true }

def Link.run (l : Link) : List Ev → C Link
  | [] => .ok l
  | e :: es => do
    let l ← l.step e
    l.run es

end

/-- Two sessions with nothing on the wire. -/
def Link.init (i r : PySession) : Link where
  side | .initiator => some i | .responder => some r
  wire _ := []
  sent _ := []
  got _ := []
  raised := false

end Verif.Spec.PyLink
