import Mathlib.Data.List.Basic

/-!
# Connections of the multiplexer, python/pyoprf/multiplexer.py:6-72

`Peer.connect`, `read`, `send` and `close`, without the bytes (these are in `Model/Multiplexer.lean`).

* Sockets are numbered in the order in which they are made. A socket that nothing refers to any more stays in the list.
* What the network and the other side do is part of the call: whether the connection succeeds, whether a read gets all it asks
  for, whether a send succeeds.
* `ssl.create_default_context` and `load_verify_locations` succeed.
* Reading from and sending over a socket that was closed on this side, or never connected, raises an exception.
-/

namespace Verif.Conn

inductive St
  | new | connected | disconnected | closed
  deriving DecidableEq, Repr

/-- The argument `type`. -/
inductive Kind
  | ssl | tcp | other
  deriving DecidableEq, Repr

/-- A socket: whether the certificate (`verify_mode`) and the name of the host (`check_hostname`) are checked, whether it was
connected, whether it was closed on this side. -/
structure Sock where
  verify : Bool
  hostname : Bool
  connected : Bool
  closed : Bool
  deriving DecidableEq, Repr

structure Peer where
  kind : Kind
  /-- the argument `ssl_cert` is given -/
  cert : Bool
  state : St
  fd : Option ℕ
  socks : List Sock
  deriving DecidableEq, Repr

/-- multiplexer.py:7-17 -/
def init (kind : Kind) (cert : Bool) : Peer := ⟨kind, cert, .new, none, []⟩

inductive Call
  /-- `connect`, and whether the other side accepts -/
  | connect (accepted : Bool)
  /-- `read`, and whether all bytes arrive -/
  | read (complete : Bool)
  /-- `send`, and whether the network takes it -/
  | send (taken : Bool)
  | close
  deriving DecidableEq, Repr

inductive Out
  | done
  | raised
  deriving DecidableEq, Repr

/-- The socket behind `self.fd`. -/
def Peer.sock (p : Peer) : Option Sock := p.fd.bind fun i => p.socks[i]?

/-- `connect`, multiplexer.py:19-43. For the type "TCP" the new socket is not stored in `self.fd`. -/
def connect (p : Peer) (accepted : Bool) : Out × Peer :=
  if p.state = .connected then (.raised, p)
  else match p.kind with
    | .other => (.raised, p)
    | .ssl =>
      let s : Sock := if p.cert then ⟨false, false, accepted, false⟩ else ⟨true, true, accepted, false⟩
      let p := { p with fd := some p.socks.length, socks := p.socks ++ [s] }
      if accepted then (.done, { p with state := .connected }) else (.raised, p)
    | .tcp =>
      match p.fd with
      | none => (.raised, p)
      | some i =>
        if accepted then
          (.done, { p with state := .connected, socks := p.socks.modify i fun s => { s with connected := true } })
        else (.raised, p)

/-- The call of a method of the socket: it raises an exception without a socket or with one that is not connected. -/
def usable (p : Peer) : Bool := match p.sock with
  | none => false
  | some s => s.connected && !s.closed

/-- `read`, multiplexer.py:45-58 -/
def read (p : Peer) (complete : Bool) : Out × Peer :=
  if p.state ≠ .connected then (.raised, p)
  else if usable p = false then (.raised, p)
  else if complete then (.done, p)
  else (.done, { p with state := .disconnected })

/-- `send`, multiplexer.py:60-61 -/
def send (p : Peer) (taken : Bool) : Out × Peer :=
  if usable p = false then (.raised, p) else if taken then (.done, p) else (.raised, p)

/-- `close`, multiplexer.py:63-72; `fileno()` is -1 for a socket that was closed on this side. -/
def close (p : Peer) : Out × Peer :=
  if p.state = .closed then (.done, p)
  else match p.fd with
    | none => (.done, { p with state := .closed })
    | some i => (.done, { p with state := .closed, socks := p.socks.modify i fun s => { s with closed := true } })

def step (p : Peer) : Call → Out × Peer
  | .connect a => connect p a
  | .read c => read p c
  | .send t => send p t
  | .close => close p

def run (p : Peer) : List Call → List Out × Peer
  | [] => ([], p)
  | c :: cs =>
    let r := step p c
    let rs := run r.2 cs
    (r.1 :: rs.1, rs.2)

end Verif.Conn
