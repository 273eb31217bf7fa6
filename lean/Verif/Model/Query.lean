import Verif.Model.Noise

/-!
# What a Noise session tells about itself, src/noise_xk/src/XK.c:5195-5765

`Model/Noise.lean` leaves out what only these functions read. `Live` adds it: the number of the session and, for a session
in transport state, `recv_transport_message`. A handshake state has no such field; there `recv` is `false`. The name
strings (`Noise_XK_session_get_info`, `Noise_XK_session_get_peer_info`) are copied as in `Model/Device.lean` and left
out here.
-/

namespace Verif.Noise

/-- `Noise_XK_status`, Noise_XK.h:46-50 -/
inductive Status
  | handshakeRead | handshakeWrite | transport
  deriving DecidableEq, Repr

/-- `Noise_XK_session_t` with the fields that `Session` lacks -/
structure Live where
  sn : Session
  id : UInt32
  recv : Bool

section
variable [Hashes] [NoiseCrypto]

/-- `Noise_XK_session_create_initiator`: the session gets `dv_states_counter` as number, XK.c:1823; the counter grows
afterwards (`createInitiator`). -/
def liveInitiator (dv : Device) (pid : UInt32) (epriv : B32) : Option Live × Device :=
  let r := createInitiator dv pid epriv
  (r.1.map fun sn => ⟨sn, dv.statesCounter, false⟩, r.2)

/-- `Noise_XK_session_create_responder` -/
def liveResponder (dv : Device) (epriv : B32) : Option Live × Device :=
  let r := createResponder dv epriv
  (r.1.map fun sn => ⟨sn, dv.statesCounter, false⟩, r.2)

/-- `Noise_XK_session_write`: transport writes keep the flag (XK.c:3890-3915), the end of the handshake clears it
(XK.c:2480). -/
def liveWrite (em : Encap) (x : Live) : RCode × Option Bytes × Live :=
  let r := sessionWrite em x.sn
  (r.1, r.2.1, { x with sn := r.2.2, recv := match x.sn.st with
    | .handshake _ => false
    | .transport _ => x.recv })

/-- `Noise_XK_session_read`: a transport message that decrypts sets the flag (XK.c:4150), the end of the handshake clears
it (XK.c:3160 and the responder's counterpart). -/
def liveRead (peers : List Peer) (x : Live) (input : Bytes) : RCode × Option Encap × Live :=
  let r := sessionRead peers x.sn input
  (r.1, r.2.1, { x with sn := r.2.2, recv := match x.sn.st with
    | .handshake _ => false
    | .transport _ => if r.1.isSuccess then true else x.recv })

end

/-- `Noise_XK_session_compute_next_message_len`, XK.c:5204-5320 (`none` is `false`, with `*out` untouched); the branches
for the two roles are equal. -/
def nextMessageLen (sn : Session) (payload : UInt32) : Option UInt32 :=
  match sn.st with
  | .handshake s =>
    if s.step = 0 then (if payload ≤ 4294967215 then some (payload + 48) else none)
    else if s.step = 1 then (if payload ≤ 4294967215 then some (payload + 48) else none)
    else if s.step = 2 then (if payload ≤ 4294967215 then some (payload + 64) else none)
    else none
  | .transport _ => if payload ≤ 4294967279 then some (payload + 16) else none

/-- `Noise_XK_session_get_status`, XK.c:5325-5382 -/
def getStatus (sn : Session) : Status :=
  match sn.st with
  | .handshake s =>
    match sn.role with
    | .initiator => if s.step % 2 = 0 then .handshakeWrite else .handshakeRead
    | .responder => if s.step % 2 = 0 then .handshakeRead else .handshakeWrite
  | .transport _ => .transport

/-- `Noise_XK_session_get_hash`, XK.c:5392-5417 -/
def getHash (sn : Session) : B64 :=
  match sn.st with
  | .handshake s => s.h
  | .transport t => t.h

/-- `Noise_XK_session_get_id`, XK.c:5422-5437 -/
def getId (x : Live) : UInt32 := x.id

/-- `Noise_XK_session_get_peer_id`, XK.c:5567-5582 -/
def getPeerId (x : Live) : UInt32 := x.sn.pid

/-- `Noise_XK_session_reached_max_security`, XK.c:5734-5775 -/
def reachedMaxSecurity (x : Live) : Bool :=
  match x.sn.role, x.sn.st with
  | .initiator, .transport _ => x.recv
  | .responder, .transport _ => true
  | _, .handshake _ => false

end Verif.Noise
