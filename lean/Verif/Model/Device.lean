import Verif.Base.C
import Verif.Model.Noise
import Mathlib.Logic.Function.Basic

/-!
# Devices and their peer lists on the heap, src/noise_xk/src/XK.c:284-1224 and 1456-1524

`Model/Noise.lean` describes a device by a record with a list of peers. Here the same functions work on a heap: a
device is a block with pointers, the peers form a singly linked list of cells, and `free` releases single blocks.
Using a block that is not live is undefined behaviour.

* Every `malloc`/`calloc` succeeds and gives an address never used before; 0 is NULL. A `calloc` followed by a
  `memcpy` over the whole block is one allocation with the copied contents.
* `free` records the contents of the block at that moment (`released`): what an erased secret would not be in.
* A name argument is the memory from the pointer on (`none` is NULL) and ends at its first zero byte or at the end of
  the list. The loops that measure and copy it are `cstr`.
* The search loops evaluate their condition once per round here and twice in the generated code (before the loop and
  at the end of the body); the loads are the same. They stop after more rounds than there are addresses (`diverge`).
* The random nonce of the `serialize` functions is an argument.
* The libsodium build: `Noise_XK_dh_secret_to_public` cannot fail, so the `NULL` exit of XK.c:419-422 is never taken.
-/

namespace Verif

namespace Noise.Mem

open NoiseCrypto

/-- `Noise_XK_device_t`, XK.c:296-307, with pointers as addresses. -/
structure DeviceRec where
  info : ℕ
  sk : ℕ
  spriv : ℕ
  spub : ℕ
  prlgLen : ℕ
  prlg : ℕ
  states : UInt32
  peers : ℕ
  peersCounter : UInt32
  deriving DecidableEq, Repr

/-- Handshake state of a session, include/noise_private.h:7-31 and 34-57, with pointers as addresses (used in
`Model/SessionMem.lean`). -/
structure HsPtr where
  step : ℕ
  k : ℕ
  ck : ℕ
  h : ℕ
  spriv : ℕ
  spub : ℕ
  epriv : ℕ
  epub : ℕ
  rs : ℕ
  re : ℕ
  deriving DecidableEq, Repr

/-- Transport state of a session; `heard` is `recv_transport_message`. -/
structure TsPtr where
  h : ℕ
  heard : Bool
  sendKey : ℕ
  sendNonce : UInt64
  recvKey : ℕ
  recvNonce : UInt64
  deriving DecidableEq, Repr

inductive StPtr
  | handshake (p : HsPtr)
  | transport (p : TsPtr)
  deriving DecidableEq, Repr

/-- `Noise_XK_session_t`, include/noise_private.h:60-84; the two cases have the same fields. -/
structure SessionRec where
  role : Role
  st : StPtr
  id : UInt32
  info : ℕ
  spriv : ℕ
  spub : ℕ
  pid : UInt32
  pinfo : ℕ
  dv : ℕ
  deriving DecidableEq, Repr

/-- Contents of an allocated block: list cell (`Noise_XK_cell`), peer record (XK.c:284-290), pointer to a string
(`Noise_XK_noise_string *`), bytes, head pointer of the peer list (`dv_peers`), device record, session, message with a
security level (`Noise_XK_encap_message_t`, XK.c:110-116), number of a peer (`pid_ptr`). -/
inductive Block
  | cell (next data : ℕ)
  | peer (id : UInt32) (info s : ℕ)
  | str (p : ℕ)
  | bytes (b : Bytes)
  | head (p : ℕ)
  | device (d : DeviceRec)
  | session (s : SessionRec)
  | encap (level : Level) (len msg : ℕ)
  | word (n : UInt32)
  deriving DecidableEq, Repr

structure Heap where
  mem : ℕ → Option Block
  /-- next address to hand out -/
  next : ℕ
  /-- contents of the blocks at the time they were freed, newest first -/
  released : List Block

/-- A C function working on the heap. -/
abbrev M (α : Type) := StateT Heap C α

def ub {α : Type} (u : UB) : M α := fun _ => .ub u

/-- `KRML_HOST_MALLOC`/`KRML_HOST_CALLOC` and initialisation -/
def alloc (b : Block) : M ℕ := fun h =>
  .ok (h.next, { h with mem := Function.update h.mem h.next (some b), next := h.next + 1 })

/-- `KRML_HOST_FREE` -/
def free (a : ℕ) : M Unit := fun h =>
  if a = 0 then .ok ((), h)
  else match h.mem a with
    | none => .ub .doubleFree
    | some b => .ok ((), { h with mem := Function.update h.mem a none, released := b :: h.released })

def load (a : ℕ) : M Block := fun h =>
  if a = 0 then .ub .null
  else match h.mem a with
    | none => .ub .freed
    | some b => .ok (b, h)

def store (a : ℕ) (b : Block) : M Unit := fun h =>
  if a = 0 then .ub .null
  else match h.mem a with
    | none => .ub .freed
    | some _ => .ok ((), { h with mem := Function.update h.mem a (some b) })

def loadCell (a : ℕ) : M (ℕ × ℕ) := do
  match ← load a with
  | .cell n d => pure (n, d)
  | _ => ub .oob

def loadPeer (a : ℕ) : M (UInt32 × ℕ × ℕ) := do
  match ← load a with
  | .peer i p s => pure (i, p, s)
  | _ => ub .oob

def loadStr (a : ℕ) : M ℕ := do
  match ← load a with
  | .str p => pure p
  | _ => ub .oob

def loadBytes (a : ℕ) : M Bytes := do
  match ← load a with
  | .bytes b => pure b
  | _ => ub .oob

def loadHead (a : ℕ) : M ℕ := do
  match ← load a with
  | .head p => pure p
  | _ => ub .oob

def loadDevice (a : ℕ) : M DeviceRec := do
  match ← load a with
  | .device d => pure d
  | _ => ub .oob

/-- The first `n` bytes behind a pointer into a block. -/
def loadN (a n : ℕ) : M Bytes := do
  let b ← loadBytes a
  if n ≤ b.length then pure (b.take n) else ub .oob

/-- `if (!(p == NULL)) KRML_HOST_FREE(p)` -/
def freeSome (p : ℕ) : M Unit := if p ≠ 0 then free p else pure ()

/-- The string behind a pointer, without its terminator. -/
def cstr (s : Bytes) : Bytes := s.takeWhile (· ≠ 0)

/-- Copy of a string on the heap: NULL for the empty string, XK.c:356-394, 757-795, 1469-1509 -/
def copyStr (s : Bytes) : M ℕ :=
  if s = [] then pure 0 else alloc (.bytes (s ++ [0]))

/-- Bytes of a name argument (NULL is empty), XK.c:455-478, 633-656 -/
def argStr : Option Bytes → Bytes
  | none => []
  | some s => cstr s

/-- A string stored on the heap (NULL is empty): up to the first zero byte, which must be in the block. -/
def storedStr (p : ℕ) : M Bytes :=
  if p = 0 then pure []
  else do
    let b ← loadBytes p
    if 0 ∈ b then pure (cstr b) else ub .oob

/-- `Noise_XK_lbytes_eq`, Noise_XK.c:5-19 -/
def lbytesEq (b1 b2 : Bytes) : Bool :=
  (List.zipWith (· ^^^ ·) b1 b2).foldl (fun acc d => d ||| acc) 0 == 0

/-- `Noise_XK_bytes_to_nonce`, Noise_XK.c:21-26 -/
def bytesToNonce (n8 : Bytes) : UInt64 := UInt64.ofNat (leNat n8)

section
variable [NoiseCrypto]

/-- The blocks of a new device from XK.c:345-418 on (500-572 in `create_from_secret`): prologue, name, empty peer list
and the device record; the key blocks exist already. -/
def newDevice (prlg : Bytes) (info : Option Bytes) (sk spriv spub : ℕ) : M ℕ := do
  let prlg' ← if prlg.length > 0 then alloc (.bytes prlg) else pure 0
  let outStr ← copyStr (argStr info)
  let info' ← alloc (.str outStr)
  let peers ← alloc (.head 0)
  alloc (.device { info := info', sk, spriv, spub, prlgLen := prlg.length, prlg := prlg', states := 1, peers,
                   peersCounter := 1 })

/-- `Noise_XK_device_create`, XK.c:325-426 -/
def create (prlg : Bytes) (info : Option Bytes) (sk spriv : B32) : M ℕ := do
  let sk' ← alloc (.bytes sk.toList)
  let spriv' ← alloc (.bytes spriv.toList)
  let spub' ← alloc (.bytes (xbase spriv).toList)
  newDevice prlg info sk' spriv' spub'

/-- `Noise_XK_device_create_from_secret`, XK.c:445-597; `spriv` is the memory of the encrypted key. -/
def createFromSecret (prlg : Bytes) (info : Option Bytes) (sk : B32) (spriv : Bytes) : M ℕ := do
  let spriv' ← alloc (.bytes (List.replicate 32 0))
  if spriv.length < 56 then ub .oob
  else
    match aeadDec sk (bytesToNonce (spriv.take 8)) (argStr info) ((spriv.drop 8).take 48) with
    | none => do
      free spriv'
      pure 0
    | some k => do
      store spriv' (.bytes k)
      let sk' ← alloc (.bytes sk.toList)
      let spub' ← alloc (.bytes (xbase (toB32 k)).toList)
      newDevice prlg info sk' spriv' spub'

end

/-- Search loop of the lookups: the first cell, from `p` on, whose peer satisfies the test, or 0. -/
def findLoop (test : UInt32 × ℕ × ℕ → M Bool) : (fuel : ℕ) → (p : ℕ) → M ℕ
  | 0, _ => ub .diverge
  | fuel + 1, p =>
    if p = 0 then pure 0
    else do
      let c ← loadCell p
      let x ← loadPeer c.2
      if ← test x then pure p else findLoop test fuel c.1

/-- The loop with its fuel, more than there are addresses. -/
def find (test : UInt32 × ℕ × ℕ → M Bool) (p : ℕ) : M ℕ := fun h => findLoop test (h.next + 1) p h

/-- Peer of the cell that was found: XK.c:736-744, 1263-1271, 1318-1326 -/
def cellData (p : ℕ) : M ℕ :=
  if p = 0 then pure 0 else do
    let c ← loadCell p
    pure c.2

def sameStatic (s : Bytes) (x : UInt32 × ℕ × ℕ) : M Bool := do
  let k ← loadN x.2.2 32
  pure (lbytesEq k s)

/-- `Noise_XK_device_lookup_peer_by_id`, XK.c:1225-1272 -/
def lookupById (dvp : ℕ) (id : UInt32) : M ℕ := do
  let dv ← loadDevice dvp
  if id = 0 then pure 0
  else do
    let llt ← loadHead dv.peers
    let p ← find (fun x => pure (x.1 == id)) llt
    cellData p

/-- `Noise_XK_device_lookup_peer_by_static`, XK.c:1285-1330 -/
def lookupByStatic (dvp : ℕ) (s : B32) : M ℕ := do
  let dv ← loadDevice dvp
  let llt ← loadHead dv.peers
  let p ← find (sameStatic s.toList) llt
  cellData p

/-- `Noise_XK_device_add_peer`, XK.c:697-833 -/
def addPeer (dvp : ℕ) (pinfo : Option Bytes) (rs : B32) : M ℕ := do
  let dv ← loadDevice dvp
  let llt ← loadHead dv.peers
  let p ← find (sameStatic rs.toList) llt
  let res ← cellData p
  if dv.peersCounter = 4294967295 ∨ res ≠ 0 then pure 0
  else do
    let rs1 ← alloc (.bytes rs.toList)
    let outStr ← copyStr (argStr pinfo)
    let pinfo1 ← alloc (.str outStr)
    let x ← alloc (.peer dv.peersCounter pinfo1 rs1)
    -- push, XK.c:672-684
    let l ← loadHead dv.peers
    let pc ← alloc (.cell l x)
    store dv.peers (.head pc)
    store dvp (.device { dv with peersCounter := dv.peersCounter + 1 })
    pure x

/-- The blocks of a removed peer are released, its key is zeroed before: XK.c:896-908 and 917-929. -/
def freePeer (pp : ℕ) : M Unit := do
  let p ← loadPeer pp
  let str ← loadStr p.2.1
  freeSome str
  free p.2.1
  let _ ← loadN p.2.2 32
  store p.2.2 (.bytes (List.replicate 32 0))
  free p.2.2

/-- Loop of `Noise_XK_device_remove_peer`, XK.c:864-892: the last cell before the one with the peer `pid`, or the last
cell of the list. -/
def beforeLoop (pid : UInt32) : (fuel : ℕ) → (p : ℕ) → M ℕ
  | 0, _ => ub .diverge
  | fuel + 1, p => do
    let c ← loadCell p
    if c.1 = 0 then pure p
    else do
      let n ← loadCell c.1
      let x ← loadPeer n.2
      if x.1 ≠ pid then beforeLoop pid fuel c.1 else pure p

def before (pid : UInt32) (p : ℕ) : M ℕ := fun h => beforeLoop pid (h.next + 1) p h

/-- `Noise_XK_device_remove_peer`, XK.c:851-935, with `pop`, XK.c:835-846 -/
def removePeer (dvp : ℕ) (pid : UInt32) : M Unit := do
  if pid = 0 then pure ()
  else do
    let dv ← loadDevice dvp
    let llt ← loadHead dv.peers
    if llt = 0 then pure ()
    else do
      let c0 ← loadCell llt
      let x ← loadPeer c0.2
      if x.1 ≠ pid then do
        let llt1 ← loadHead dv.peers
        let llt2 ← before pid llt1
        let c01 ← loadCell llt2
        if c01.1 = 0 then pure ()
        else do
          let c1 ← loadCell c01.1
          store llt2 (.cell c1.1 c01.2)
          freePeer c1.2
          free c1.2
          free c01.1
      else do
        let l ← loadHead dv.peers
        let c ← loadCell l
        store dv.peers (.head c.1)
        free l
        freePeer c.2
        free c.2

/-- `Noise_XK_peer_get_id`, XK.c:1456-1460 -/
def peerGetId (pp : ℕ) : M UInt32 := do
  let p ← loadPeer pp
  pure p.1

/-- `Noise_XK_peer_get_info`, XK.c:1465-1511: pointer to a copy of the name, NULL if it is empty -/
def peerGetInfo (pp : ℕ) : M ℕ := do
  let p ← loadPeer pp
  let inputStr ← loadStr p.2.1
  let s ← storedStr inputStr
  copyStr s

/-- `Noise_XK_peer_get_static`, XK.c:1520-1524 -/
def peerGetStatic (pp : ℕ) : M Bytes := do
  let p ← loadPeer pp
  loadN p.2.2 32

section
variable [NoiseCrypto]

/-- `Noise_XK_serialize_device_secret`, XK.c:626-664: pointer to the 56 bytes -/
def serializeDevice (dvp : ℕ) (n8 : Bytes) : M ℕ := do
  let dv ← loadDevice dvp
  let name ← loadStr dv.info
  let nameRaw ← storedStr name
  let sk ← loadN dv.sk 32
  let spriv ← loadN dv.spriv 32
  alloc (.bytes (n8 ++ aeadEnc (toB32 sk) (bytesToNonce n8) nameRaw spriv))

/-- `Noise_XK_serialize_peer_secret`, XK.c:945-1007 -/
def serializePeer (dvp pp : ℕ) (n8 : Bytes) : M ℕ := do
  if pp = 0 then pure 0
  else do
    let dv ← loadDevice dvp
    let p ← loadPeer pp
    let concatKeys ← alloc (.bytes (List.replicate 32 0))
    let keys ← loadN p.2.2 32
    store concatKeys (.bytes keys)
    let name ← loadStr p.2.1
    let nameRaw ← storedStr name
    let sk ← loadN dv.sk 32
    let outb ← alloc (.bytes (n8 ++ aeadEnc (toB32 sk) (bytesToNonce n8) nameRaw keys))
    free concatKeys
    pure outb

/-- `Noise_XK_deserialize_peer_secret`, XK.c:1012-1214; from XK.c:1066 on the code is that of `add_peer` with the
decrypted key. -/
def deserializePeer (dvp : ℕ) (peerName : Option Bytes) (enc : Bytes) : M ℕ := do
  let dv ← loadDevice dvp
  if 56 ≠ enc.length then pure 0
  else do
    let concatKeys ← alloc (.bytes (List.replicate 32 0))
    let sk ← loadN dv.sk 32
    match aeadDec (toB32 sk) (bytesToNonce (enc.take 8)) (argStr peerName) (enc.drop 8) with
    | none => do
      free concatKeys
      pure 0
    | some k => do
      store concatKeys (.bytes k)
      let peer ← addPeer dvp peerName (toB32 k)
      free concatKeys
      pure peer

end

/-- Cells of the peer list, from the end: XK.c:577-587 -/
def freeCells : (fuel : ℕ) → (l : ℕ) → M Unit
  | 0, _ => ub .diverge
  | fuel + 1, l =>
    if l = 0 then pure ()
    else do
      let c ← loadCell l
      freeCells fuel c.1
      free l

/-- `Noise_XK_device_free`, XK.c:604-619. The serialisation key and the peers' records, names and keys are not
released, and nothing is zeroed. -/
def deviceFree (dvp : ℕ) : M Unit := do
  let dv ← loadDevice dvp
  let str ← loadStr dv.info
  freeSome str
  free dv.info
  let l ← loadHead dv.peers
  (fun h => freeCells (h.next + 1) l h : M Unit)
  store dv.peers (.head 0)
  free dv.peers
  free dv.spriv
  free dv.spub
  freeSome dv.prlg
  free dvp

end Noise.Mem

end Verif
