import Verif.Model.SessionMem
import Verif.Spec.Device

/-!
# A device with its sessions as plain values

What the session functions are meant to do, without pointers: a session is a value of `Model/Noise.lean` together with
the texts and the number that belong to it. A program that opens, uses and closes sessions is a list of operations.
-/

namespace Verif.Spec.SessionMem

open NoiseCrypto Noise Noise.Mem Spec.Device

structure Sn where
  s : Session
  /-- number of the session -/
  id : UInt32
  /-- name of the device -/
  name : Bytes
  /-- name of the peer, once it is known -/
  peer : Bytes
  /-- was a transport message received? -/
  heard : Bool

/-- A device, the prologue and number of its next session, and the sessions that were opened; `none` for those that were
refused or closed. -/
structure World where
  d : Dev
  prologue : Bytes
  next : UInt32
  sns : List (Option Sn)

inductive Op
  /-- call on the device -/
  | dev (o : Device.Op)
  /-- session as initiator with a peer, with the random ephemeral key -/
  | openTo (pid : UInt32) (epriv : B32)
  /-- session as responder -/
  | accept (epriv : B32)
  /-- send a message with a confidentiality level -/
  | send (i conf : ℕ) (msg : Bytes)
  /-- receive bytes and ask for an authentication level -/
  | recv (i auth : ℕ) (input : Bytes)
  | inspect (i : ℕ)
  | close (i : ℕ)

structure Info where
  status : Status
  hash : Bytes
  id : UInt32
  name : Bytes
  pid : UInt32
  peer : Option Bytes
  max : Bool
  key : Option Bytes
  deriving DecidableEq, Repr

inductive Out
  | dev (o : Device.Out)
  | opened (ok : Bool)
  | sent (rc : RCode) (msg : Option Bytes)
  | received (rc : RCode) (msg : Option Bytes)
  | info (i : Info)
  | closed
  /-- there is no such session -/
  | none
  deriving DecidableEq, Repr

/-- The session of a number. -/
def World.sn (w : World) (i : ℕ) : Option Sn := (w.sns[i]?).join

section
variable [Hashes] [NoiseCrypto]

/-- The device as the session functions see it. -/
def World.device (w : World) : Noise.Device :=
  { spriv := w.d.spriv, spub := xbase w.d.spriv, prologue := w.prologue, statesCounter := w.next,
    peers := w.d.peers.map fun e => ⟨e.id, e.key⟩, peersCounter := w.d.counter }

/-- Name of the peer with a number. -/
def World.peerName (w : World) (pid : UInt32) : Bytes :=
  ((w.d.peers.find? fun e => e.id = pid).map (·.name)).getD []

/-- A new session at the end of the list. -/
def World.push (w : World) (r : Option Session × Noise.Device) (peer : Bytes) : Out × World :=
  match r.1 with
  | some s => (.opened true, { w with next := r.2.statesCounter, sns := w.sns ++ [some ⟨s, w.next, w.d.name, peer, false⟩] })
  | .none => (.opened false, { w with sns := w.sns ++ [.none] })

/-- Answers of the functions that inspect a session. -/
def Sn.info (x : Sn) : Info :=
  { status := match x.s.st, x.s.role with
      | .transport _, _ => .transport
      | .handshake s, .initiator => if s.step % 2 = 0 then .handshakeWrite else .handshakeRead
      | .handshake s, .responder => if s.step % 2 = 0 then .handshakeRead else .handshakeWrite
    hash := match x.s.st with
      | .transport t => t.h.toList
      | .handshake s => s.h.toList
    id := x.id
    name := x.name
    pid := x.s.pid
    peer := if x.s.pid = 0 then .none else some x.peer
    max := match x.s.st, x.s.role with
      | .handshake _, _ => false
      | .transport _, .initiator => x.heard
      | .transport _, .responder => true
    key := (sessionGetKey x.s).map (·.toList) }

/-- A session after a received message: the peer's name is known with its number. -/
def World.after (w : World) (x : Sn) (rc : RCode) (s : Session) : Sn :=
  { x with
    s
    peer := if x.s.pid = 0 then w.peerName s.pid else x.peer
    heard := x.heard || match x.s.st with
      | .transport _ => rc.isSuccess
      | .handshake _ => false }

def World.step (w : World) : Op → Out × World
  | .dev o => (.dev (w.d.step o).1, { w with d := (w.d.step o).2 })
  | .openTo pid epriv => w.push (createInitiator w.device pid epriv) (w.peerName pid)
  | .accept epriv => w.push (createResponder w.device epriv) []
  | .send i conf msg =>
    match w.sn i with
    | .none => (.none, w)
    | some x =>
      let r := sessionWrite (pack conf msg) x.s
      (.sent r.1 r.2.1, { w with sns := w.sns.set i (some { x with s := r.2.2 }) })
  | .recv i auth input =>
    match w.sn i with
    | .none => (.none, w)
    | some x =>
      let r := sessionRead w.device.peers x.s input
      (.received r.1 (r.2.1.bind (unpack auth)), { w with sns := w.sns.set i (some (w.after x r.1 r.2.2)) })
  | .inspect i =>
    match w.sn i with
    | .none => (.none, w)
    | some x => (.info x.info, w)
  | .close i =>
    match w.sn i with
    | .none => (.none, w)
    | some _ => (.closed, { w with sns := w.sns.set i .none })

def World.run (w : World) : List Op → List Out × World
  | [] => ([], w)
  | o :: os =>
    let r := w.step o
    let rs := r.2.run os
    (r.1 :: rs.1, rs.2)

/-- A device without peers and sessions. -/
def World.new (prologue : Bytes) (name : Option Bytes) (sk spriv : B32) : World :=
  ⟨fresh name sk spriv, prologue, 1, []⟩

/-! ### The same program on the heap -/

/-- Pack, write and release as src/tp-dkg.c:155-180 does, then read and free the message. -/
def sendAt (snp conf : ℕ) (msg : Bytes) : M Out := do
  let em ← packMsg conf msg
  let r ← sessionWriteAt em snp
  encapFree em
  if r.1.isSuccess then do
    let b ← loadN r.2.2 r.2.1
    free r.2.2
    pure (.sent r.1 (some b))
  else pure (.sent r.1 .none)

/-- Read, unpack and release the message. -/
def recvAt (snp auth : ℕ) (input : Bytes) : M Out := do
  let r ← sessionReadAt snp input
  if r.1.isSuccess then do
    let u ← unpackMsg auth r.2
    encapFree r.2
    if u.1 then do
      let b ← loadBuf u.2.2 u.2.1
      free u.2.2
      pure (.received r.1 (some b))
    else pure (.received r.1 .none)
  else pure (.received r.1 .none)

/-- All questions; copies of names are freed. -/
def inspectAt (snp : ℕ) : M Out := do
  let status ← getStatus snp
  let hash ← getHash snp
  let id ← getId snp
  let p ← getInfo snp
  let name ← storedStr p
  free p
  let pid ← getPeerId snp
  let q ← getPeerInfo snp
  let peer ← (match q with
    | .none => pure .none
    | some q => do
      let b ← storedStr q
      free q
      pure (some b))
  let max ← reachedMax snp
  let key ← getKey snp
  pure (.info { status, hash, id, name, pid, peer, max, key })

/-- The session pointers that the program holds; 0 for a session that was refused or closed. -/
def stepAt (dvp : ℕ) (ps : List ℕ) : Op → M (Out × List ℕ)
  | .dev o => do
    let r ← Device.call dvp o
    pure (.dev r, ps)
  | .openTo pid epriv => do
    let p ← createInit dvp pid epriv
    pure (.opened (p != 0), ps ++ [p])
  | .accept epriv => do
    let p ← createResp dvp epriv
    pure (.opened (p != 0), ps ++ [p])
  | .send i conf msg =>
    if ps.getD i 0 = 0 then pure (.none, ps)
    else do
      let r ← sendAt (ps.getD i 0) conf msg
      pure (r, ps)
  | .recv i auth input =>
    if ps.getD i 0 = 0 then pure (.none, ps)
    else do
      let r ← recvAt (ps.getD i 0) auth input
      pure (r, ps)
  | .inspect i =>
    if ps.getD i 0 = 0 then pure (.none, ps)
    else do
      let r ← inspectAt (ps.getD i 0)
      pure (r, ps)
  | .close i =>
    if ps.getD i 0 = 0 then pure (.none, ps)
    else do
      sessionFree (ps.getD i 0)
      pure (.closed, ps.set i 0)

def runAt (dvp : ℕ) (ps : List ℕ) : List Op → M (List Out × List ℕ)
  | [] => pure ([], ps)
  | o :: os => do
    let r ← stepAt dvp ps o
    let rs ← runAt dvp r.2 os
    pure (r.1 :: rs.1, rs.2)

end

end Verif.Spec.SessionMem
