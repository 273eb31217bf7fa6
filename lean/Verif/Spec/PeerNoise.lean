import Verif.Model.PeerNoise
import Verif.Spec.SessionMem

/-!
# Programs that use the Noise helpers of the key generation

A program is a list of helper calls on the slots of a peer, with arbitrary messages from outside. It runs on the values of
`Model/Peer.lean` and on the heap.
-/

namespace Verif.Spec.PeerNoise

open TpDkg Noise Noise.Mem

inductive Op
  /-- open a session in slot `i` with the peer number `k` -/
  | init (i k : ℕ) (rpk epriv : B32)
  /-- answer in slot `i` -/
  | respond (i : ℕ) (inmsg : Bytes) (epriv : B32)
  | finish (log : Bool) (i : ℕ) (msg : Bytes)
  | encrypt (i : ℕ) (input : Bytes) (outputLen : ℕ)
  | decrypt (i : ℕ) (input : Bytes) (outputLen : ℕ)
  /-- read the session key -/
  | key (i : ℕ)
  /-- free the session in slot `i` -/
  | free (i : ℕ)

/-- What the caller sees: the return value and the bytes that were written. -/
inductive Out
  | ret (r : Int) (msg : Option Bytes)
  | key (k : Bytes)
  | freed
  deriving DecidableEq, Repr

/-- Device, slots, the number of open sessions whose slot was overwritten, and the number of blocks of received messages
that nobody freed. -/
structure Vals where
  dv : Noise.Device
  slots : List (Ptr Session)
  lost : ℕ
  leaked : ℕ

/-- Is there an open session behind the pointer? -/
def isLive : Ptr Session → Bool
  | .live _ => true
  | _ => false

/-- Blocks of a received message that stay allocated: both blocks of a message that is refused because of its level, and
the copy of the text if the caller does not free it. -/
def unfreed (auth : ℕ) (frees : Bool) : Option Encap → ℕ
  | none => 0
  | some em =>
    if (unpack auth em).isNone then 2
    else if frees ∨ em.msg = [] then 0 else 1

section
variable [Hashes] [NoiseCrypto]

/-- A new value for slot `i`, with `n` more blocks leaked. -/
def Vals.put (v : Vals) (i : ℕ) (p : Ptr Session) (n : ℕ) : Vals :=
  { v with slots := v.slots.set i p, leaked := v.leaked + n }

/-- Slot `i` gets a value without looking at the old one. -/
def Vals.over (v : Vals) (dv : Noise.Device) (i : ℕ) (old p : Ptr Session) (n : ℕ) : Vals :=
  { dv, slots := v.slots.set i p, lost := v.lost + (if isLive old then 1 else 0), leaked := v.leaked + n }

/-- What `tpdkg_respond_noise_handshake` leaves of the message. -/
def respondLeak (dv : Noise.Device) (inmsg : Bytes) (epriv : B32) : ℕ :=
  match createResponder dv epriv with
  | (none, _) => 0
  | (some sn, dv) => unfreed 0 false (sessionRead dv.peers sn inmsg).2.1

/-- What `tpdkg_finish_noise_handshake` leaves of the message. -/
def finishLeak (log : Bool) (dv : Noise.Device) (slot : Ptr Session) (msg : Bytes) : ℕ :=
  match slot with
  | .live sn =>
    if log ∧ lookupPeer dv sn.pid = none then 0 else unfreed 0 false (sessionRead dv.peers sn msg).2.1
  | _ => 0

/-- What `tpdkg_noise_decrypt` leaves of the message. -/
def decryptLeak (dv : Noise.Device) (slot : Ptr Session) (input : Bytes) : ℕ :=
  match slot with
  | .live sn => if input.length > 1024 then 0 else unfreed 2 true (sessionRead dv.peers sn input).2.1
  | _ => 0

def Vals.step (v : Vals) : Op → C (Out × Vals)
  | .init i _ rpk epriv => do
    let slot ← ld v.slots i
    let r := initNoise v.dv slot rpk epriv
    .ok (.ret r.1 r.2.2.2, if r.1 = 1 then { v with dv := r.2.1 } else v.over r.2.1 i slot r.2.2.1 0)
  | .respond i inmsg epriv => do
    let slot ← ld v.slots i
    let r := respondNoise v.dv inmsg epriv
    .ok (.ret r.1 r.2.2.2, v.over r.2.1 i slot r.2.2.1 (respondLeak v.dv inmsg epriv))
  | .finish log i msg => do
    let slot ← ld v.slots i
    let r ← finishNoise log v.dv slot msg
    .ok (.ret r.1 none, v.put i r.2 (finishLeak log v.dv slot msg))
  | .encrypt i input len => do
    let slot ← ld v.slots i
    let r ← encryptNoise slot input len
    .ok (.ret r.1 r.2.2, v.put i r.2.1 0)
  | .decrypt i input len => do
    let slot ← ld v.slots i
    let r ← decryptNoise v.dv slot input len
    .ok (.ret r.1 r.2.2, v.put i r.2.1 (decryptLeak v.dv slot input))
  | .key i => do
    let slot ← ld v.slots i
    let k ← keyAt slot
    .ok (.key k.toList, v)
  | .free i => do
    let slot ← ld v.slots i
    let p ← slot.free
    .ok (.freed, v.put i p 0)

def Vals.run (v : Vals) : List Op → C (List Out × Vals)
  | [] => .ok ([], v)
  | o :: os => do
    let r ← v.step o
    let rs ← r.2.run os
    .ok (r.1 :: rs.1, rs.2)

/-- The device of a peer, tp-dkg.c:838, with `n` empty slots. -/
def Vals.new (noiseSk : B32) (n : ℕ) : Vals := ⟨deviceCreate Peer.prologue noiseSk, List.replicate n .null, 0, 0⟩

/-! ### The same program on the heap -/

def liftC {α : Type} (c : C α) : M α := fun h => c >>= fun a => .ok (a, h)

/-- The slots of the program hold addresses. -/
def stepAt (dvp : ℕ) (qs : List ℕ) : Op → M (Out × List ℕ)
  | .init i k rpk epriv => do
    let slot ← liftC (ld qs i)
    let r ← initNoiseAt dvp slot (rname k) rpk epriv
    pure (.ret r.1 r.2.2, qs.set i r.2.1)
  | .respond i inmsg epriv => do
    let _ ← liftC (ld qs i)
    let r ← respondNoiseAt dvp inmsg epriv
    pure (.ret r.1 r.2.2, qs.set i r.2.1)
  | .finish log i msg => do
    let slot ← liftC (ld qs i)
    let r ← finishNoiseAt log dvp slot msg
    pure (.ret r none, qs)
  | .encrypt i input len => do
    let slot ← liftC (ld qs i)
    let r ← encryptNoiseAt slot input len
    pure (.ret r.1 r.2, qs)
  | .decrypt i input len => do
    let slot ← liftC (ld qs i)
    let r ← decryptNoiseAt slot input len
    pure (.ret r.1 r.2, qs)
  | .key i => do
    let slot ← liftC (ld qs i)
    let k ← keyNoiseAt slot
    pure (.key k, qs)
  | .free i => do
    let slot ← liftC (ld qs i)
    freeSlotAt slot
    pure (.freed, qs)

def runAt (dvp : ℕ) (qs : List ℕ) : List Op → M (List Out × List ℕ)
  | [] => pure ([], qs)
  | o :: os => do
    let r ← stepAt dvp qs o
    let rs ← runAt dvp r.2 os
    pure (r.1 :: rs.1, rs.2)

end

/-- The calls of the key generation pass at most 1024 bytes. -/
def short : Op → Prop
  | .encrypt _ input _ => input.length ≤ 1024
  | .decrypt _ input _ => input.length ≤ 1024
  | _ => True

end Verif.Spec.PeerNoise
