import Verif.Model.Python
import Verif.Model.Noise

/-!
# Model of `python/pyoprf/noisexk.py`

The wrapper of the Noise library. A call ends with a value or with a Python exception (`none`), or runs into undefined
behaviour of the C code. Objects are passed by `ctypes` as described in `Model/Python.lean`.

Simplifications:
* The device of a session is never freed by the wrapper; of it the session functions only read the list of peers, which is
  kept with the session.
* `Noise_XK_rcode` is returned as a small structure and read by `ctypes` as an `int`, `bool` as an `int`, and the `uint32_t` of
  `Noise_XK_peer_get_id` as a pointer. What is modelled is the value; the unused bits of the register are taken as zero.
* Leaked messages, sessions and devices are not modelled.
* Fresh ephemeral keys are parameters.
-/

namespace Verif.PyNoise

open Py Noise NoiseCrypto

/-- A session together with the peers of its device; `none` is the NULL that Python sees as `None`. -/
structure PySession where
  sn : Session
  peers : List Peer

def raise {α : Type} : C (Option α) := .ok none

def ret {α : Type} (a : α) : C (Option α) := .ok (some a)

/-- Continue unless an exception was raised. -/
def andThen {α β : Type} (x : C (Option α)) (f : α → C (Option β)) : C (Option β) := do
  match ← x with
  | none => .ok none
  | some a => f a

/-- A conversion that may raise. -/
def conv {α : Type} (x : Option α) : C (Option α) := .ok x

/-- A C function that reads memory. -/
def cc {α : Type} (x : C α) : C (Option α) := do
  let a ← x
  .ok (some a)

/-- `c_char_p.from_param`: `bytes` and character arrays. -/
def charp : Val → Option Bytes
  | .bytes b => some (b ++ [0])
  | .array b => some b
  | _ => none

/-- `c_void_p.from_param` of a name, or `None`. -/
def namep : Option Val → Option (Option Bytes)
  | none => some none
  | some v => v.ptr.map some

/-- The C code reads a name up to its zero byte. -/
def readName (p : Option Bytes) : C Unit :=
  match p with
  | none => .ok ()
  | some b => if 0 ∈ b then .ok () else .ub .oob

section
variable [Hashes] [NoiseCrypto]

/-- `pubkey`, noisexk.py:55-58 -/
def pubkey (privkey : Val) : C (Option B32) :=
  andThen (conv privkey.ptr) fun p => andThen (cc (b32At p 0)) fun k => ret (xbase k)

/-- `create_device`, noisexk.py:61-63; the length is passed as `int` to a `uint32_t`. -/
def createDevice (prologue : Val) (name : Option Val) (privkey : Val) : C (Option Device) :=
  andThen (conv prologue.len) fun len =>
  andThen (conv prologue.ptr) fun p =>
  andThen (conv (namep name)) fun nm =>
  andThen (conv privkey.ptr) fun k =>
  andThen (cc (b32At k 0)) fun k =>
  andThen (cc (rd p 0 (len % 4294967296))) fun prlg =>
  andThen (cc (readName nm)) fun _ =>
  ret (deviceCreate prlg k)

/-- `add_peer`, noisexk.py:52-53: the number of the peer (`none` for NULL) and the device -/
def addPeer (dv : Device) (name : Option Val) (key : Val) : C (Option (Option UInt32 × Device)) :=
  andThen (conv (namep name)) fun nm =>
  andThen (conv (charp key)) fun k =>
  andThen (cc (b32At k 0)) fun k =>
  andThen (cc (readName nm)) fun _ =>
  ret (deviceAddPeer dv k)

/-- `get_peerid`, noisexk.py:67-68 -/
def getPeerid : Option UInt32 → C (Option UInt32)
  | none => .ub .null
  | some i => ret i

/-- `create_session_initiator`, noisexk.py:78-81. `res == 0` is false for the `None` that stands for NULL. -/
def createSessionInitiator (dv : Device) (pid : UInt32) (e : B32) : C (Option (Option PySession)) :=
  match createInitiator dv pid e with
  | (some sn, dv') => ret (some ⟨sn, dv'.peers⟩)
  | (none, _) => ret none

/-- `create_session_responder`, noisexk.py:85-88 -/
def createSessionResponder (dv : Device) (e : B32) : C (Option (Option PySession)) :=
  match createResponder dv e with
  | (some sn, dv') => ret (some ⟨sn, dv'.peers⟩)
  | (none, _) => ret none

/-- `Noise_XK_session_write` with the check of its result; the session afterwards, also if an exception is raised. -/
def write (em : Encap) : Option PySession → C (Option Bytes × Option PySession)
  | none => .ub .null
  | some s =>
    match sessionWrite em s.sn with
    | (.success, out, sn') => .ok (out, some { s with sn := sn' })
    | (_, _, sn') => .ok (none, some { s with sn := sn' })

/-- `Noise_XK_session_read` and `Noise_XK_unpack_message_with_auth_level` with the checks of their results. -/
def read (auth : ℕ) (msg : Bytes) : Option PySession → C (Option Bytes × Option PySession)
  | none => .ub .null
  | some s =>
    match sessionRead s.peers s.sn (msg.take (msg.length % 4294967296)) with
    | (.success, some em, sn') => .ok (unpack auth em, some { s with sn := sn' })
    | (_, _, sn') => .ok (none, some { s with sn := sn' })

/-- `initiator_1st_msg`, noisexk.py:93-103 -/
def initiator1stMsg (s : Option PySession) : C (Option Bytes × Option PySession) := write (pack 0 []) s

/-- `responder_1st_msg`, noisexk.py:108-121 -/
def responder1stMsg (s : Option PySession) (msg : Bytes) : C (Option Bytes × Option PySession) := do
  match ← read 0 msg s with
  | (none, s) => .ok (none, s)
  | (some _, s) => initiator1stMsg s

/-- `initiator_handshake_finish`, noisexk.py:123-135 -/
def initiatorHandshakeFinish (s : Option PySession) (msg : Bytes) : C (Option Unit × Option PySession) := do
  match ← read 0 msg s with
  | (none, s) => .ok (none, s)
  | (some _, s) => .ok (some (), s)

end

/-- UTF-8 of a code point; surrogates cannot be encoded. -/
def utf8Char (c : UInt32) : Option Bytes :=
  if UInt32.isValidChar c then some (String.utf8EncodeChar (Char.ofNat c.toNat)) else none

/-- `msg.encode('utf8')` -/
def utf8 (s : List UInt32) : Option Bytes := (s.mapM utf8Char).map List.flatten

/-- `if isinstance(msg, str): msg = msg.encode('utf8')`, noisexk.py:138 -/
def encodeStr : Val → Option Val
  | .str s => (utf8 s).map .bytes
  | v => some v

section
variable [Hashes] [NoiseCrypto]

/-- `send_msg`, noisexk.py:137-148 -/
def sendMsg (s : Option PySession) (msg : Val) : C (Option Bytes × Option PySession) :=
  match encodeStr msg with
  | none => .ok (none, s)
  | some v =>
    match v.len, v.ptr with
    | some len, some p => do
      let m ← rd p 0 (len % 4294967296)
      write (pack 5 m) s
    | _, _ => .ok (none, s)

/-- `read_msg`, noisexk.py:150-165 -/
def readMsg (s : Option PySession) (msg : Bytes) : C (Option Bytes × Option PySession) := read 2 msg s

/-- `get_pubkey`, noisexk.py:172-177; the device is the one of the session. -/
def getPubkey : Option PySession → C B32
  | none => .ub .null
  | some s =>
    match (if s.sn.pid = 0 then none else s.peers.find? fun p => p.id == s.sn.pid) with
    | none => .ub .null
    | some p => .ok p.s

/-- b"liboprf-noiseXK" -/
def defaultDst : Val := .bytes [108, 105, 98, 111, 112, 114, 102, 45, 110, 111, 105, 115, 101, 88, 75]

/-- b"initiator" -/
def defaultInitiator : Val := .bytes [105, 110, 105, 116, 105, 97, 116, 111, 114]

/-- b"responder" -/
def defaultResponder : Val := .bytes [114, 101, 115, 112, 111, 110, 100, 101, 114]

/-- `initiator_session`, noisexk.py:179-194 -/
def initiatorSession (privkey rpub : Val) (iname rname dst : Option Val) (e : B32) : C (Option (Option PySession × Bytes)) :=
  let dst := dst.getD defaultDst
  let iname := iname.getD defaultInitiator
  let rname := rname.getD defaultResponder
  andThen (pubkey privkey) fun _ =>
  andThen (createDevice dst (some iname) privkey) fun dev =>
  andThen (addPeer dev (some rname) rpub) fun (peer, dev) =>
  andThen (getPeerid peer) fun pid =>
  andThen (createSessionInitiator dev pid e) fun s => do
  match ← initiator1stMsg s with
  | (none, _) => raise
  | (some m, s) => ret (s, m)

/-- `for key, peer in auth_keys: add_peer(dev,peer,key)` -/
def addPeers (dv : Device) : List (Val × Option Val) → C (Option Device)
  | [] => ret dv
  | (key, name) :: ks => andThen (addPeer dv name key) fun r => addPeers r.2 ks

/-- `responder_session`, noisexk.py:197-208 -/
def responderSession (privkey : Val) (authKeys : List (Val × Option Val)) (msg : Bytes) (dst name : Option Val) (e : B32) :
    C (Option (Option PySession × Bytes)) :=
  let dst := dst.getD defaultDst
  let name := name.getD defaultResponder
  andThen (pubkey privkey) fun _ =>
  andThen (createDevice dst (some name) privkey) fun dev =>
  andThen (addPeers dev authKeys) fun dev =>
  andThen (createSessionResponder dev e) fun s => do
  match ← responder1stMsg s msg with
  | (none, _) => raise
  | (some m, s) => ret (s, m)

/-- `initiator_session_complete`, noisexk.py:210-211 -/
def initiatorSessionComplete (s : Option PySession) (msg : Bytes) : C (Option Unit × Option PySession) :=
  initiatorHandshakeFinish s msg

end

end Verif.PyNoise
