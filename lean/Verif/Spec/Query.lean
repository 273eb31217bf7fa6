import Verif.Model.Query
import Verif.Spec.Noise

/-!
# The life of a Noise session

The calls of a session with what they returned. What a session may say about itself is determined by the calls that
succeeded.
-/

namespace Verif.Spec.NoiseLife

open Noise

/-- A call on a session -/
inductive Use
  | write (em : Encap)
  | read (peers : List Peer) (input : Bytes)

def Use.isRead : Use → Bool
  | .read .. => true
  | .write _ => false

section
variable [Hashes] [NoiseCrypto]

/-- Return code and session of one call -/
def use (x : Live) : Use → RCode × Live
  | .write em => ((liveWrite em x).1, (liveWrite em x).2.2)
  | .read peers input => ((liveRead peers x input).1, (liveRead peers x input).2.2)

/-- The session after some calls -/
def live (x : Live) : List Use → Live
  | [] => x
  | u :: us => live (use x u).2 us

/-- The calls that succeeded -/
def done (x : Live) : List Use → List Use
  | [] => []
  | u :: us => if (use x u).1 = .success then u :: done (use x u).2 us else done (use x u).2 us

/-- Has a call made the session unusable? -/
def broken (x : Live) : List Use → Prop
  | [] => False
  | u :: us => (∃ e, (use x u).1 = .stuck e) ∨ broken (use x u).2 us

/-- What a program does with a device as far as sessions are concerned; the peers may change at any time. -/
inductive DeviceUse
  | peers (ps : List Peer)
  | initiator (pid : UInt32) (epriv : B32)
  | responder (epriv : B32)

/-- The sessions that a device makes -/
def sessions : List DeviceUse → Device → List Live
  | [], _ => []
  | .peers ps :: us, dv => sessions us { dv with peers := ps }
  | .initiator pid e :: us, dv => (liveInitiator dv pid e).1.toList ++ sessions us (liveInitiator dv pid e).2
  | .responder e :: us, dv => (liveResponder dv e).1.toList ++ sessions us (liveResponder dv e).2

end

/-- What the next call has to be after `n` successful ones: the initiator writes, reads, writes. -/
def turn (r : Role) (n : ℕ) : Status :=
  if 3 ≤ n then .transport
  else match NoiseXK.writer n with
    | some w => if w = r then .handshakeWrite else .handshakeRead
    | none => .transport

/-- Nothing is left to wait for: the handshake is over and the other side is known to have finished it, too. The
responder reads the last message of the handshake; the initiator has to wait for a message in transport state. -/
def settled (r : Role) (calls : List Use) : Prop :=
  3 ≤ calls.length ∧ (r = .initiator → ∃ u ∈ calls.drop 3, u.isRead = true)

end Verif.Spec.NoiseLife
