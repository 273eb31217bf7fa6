import Verif.Model.Device

/-!
# Devices with their peers as plain lists

What the device functions are meant to do, without pointers: a device is a record with a list of peers.
-/

namespace Verif.Spec.Device

open NoiseCrypto

structure Entry where
  id : UInt32
  name : Bytes
  key : B32
  deriving DecidableEq, Repr

structure Dev where
  name : Bytes
  sk : B32
  spriv : B32
  peers : List Entry
  /-- number of the next peer -/
  counter : UInt32

/-- Text of a name argument: nothing for NULL, otherwise up to the first zero byte. -/
def text (s : Option Bytes) : Bytes := (s.getD []).takeWhile (· ≠ 0)

/-- A device without peers. -/
def fresh (name : Option Bytes) (sk spriv : B32) : Dev := ⟨text name, sk, spriv, [], 1⟩

/-- Calls that a user of the library can make on a device. -/
inductive Op
  | add (name : Option Bytes) (key : B32)
  | remove (id : UInt32)
  | byId (id : UInt32)
  | byKey (key : B32)
  /-- store the device's secret, with the random nonce -/
  | saveDevice (nonce : Bytes)
  /-- store the peer with this number -/
  | savePeer (id : UInt32) (nonce : Bytes)
  /-- add a stored peer -/
  | loadPeer (name : Option Bytes) (record : Bytes)

inductive Out
  | unit
  /-- number of the added peer, if it was added -/
  | added (id : Option UInt32)
  | entry (e : Option Entry)
  | record (r : Option Bytes)
  deriving DecidableEq, Repr

def Dev.add (d : Dev) (name : Option Bytes) (key : B32) : Out × Dev :=
  if d.counter = 4294967295 ∨ key ∈ d.peers.map (·.key) then (.added none, d)
  else (.added (some d.counter), { d with peers := ⟨d.counter, text name, key⟩ :: d.peers, counter := d.counter + 1 })

/-- A record: the nonce and the encryption of a key with the name as associated data. -/
def record [NoiseCrypto] (sk : B32) (nonce name : Bytes) (key : B32) : Bytes :=
  nonce ++ aeadEnc sk (UInt64.ofNat (leNat nonce)) name key.toList

def Dev.step [NoiseCrypto] (d : Dev) : Op → Out × Dev
  | .add name key => d.add name key
  | .remove id => (.unit, { d with peers := d.peers.filter fun e => e.id ≠ id })
  | .byId id => (.entry (d.peers.find? fun e => e.id = id), d)
  | .byKey key => (.entry (d.peers.find? fun e => e.key = key), d)
  | .saveDevice nonce => (.record (some (record d.sk nonce d.name d.spriv)), d)
  | .savePeer id nonce =>
    (.record ((d.peers.find? fun e => e.id = id).map fun e => record d.sk nonce e.name e.key), d)
  | .loadPeer name r =>
    if r.length = 56 then
      match aeadDec d.sk (UInt64.ofNat (leNat (r.take 8))) (text name) (r.drop 8) with
      | some k => d.add name (toB32 k)
      | none => (.added none, d)
    else (.added none, d)

def Dev.run [NoiseCrypto] (d : Dev) : List Op → List Out × Dev
  | [] => ([], d)
  | o :: os =>
    let r := d.step o
    let rs := r.2.run os
    (r.1 :: rs.1, rs.2)

/-- Numbers of the peers that a sequence of calls added. -/
def addedIds : List Out → List UInt32
  | [] => []
  | .added (some i) :: os => i :: addedIds os
  | _ :: os => addedIds os

/-- Blocks of the peers' records that `device_free` does not release: record, pointer to the name, key, and the name if
there is one. -/
def peerBlocks (ps : List Entry) : ℕ := (ps.map fun e => if e.name = [] then 3 else 4).sum

/-! ### The same calls on the heap -/

open Noise.Mem

/-- Read a peer through the pointer that a lookup returned, as src/tp-dkg.c:250-263 does; the copy of the name is freed. -/
def readPeer (pp : ℕ) : M (Option Entry) :=
  if pp = 0 then pure none
  else do
    let id ← peerGetId pp
    let info ← peerGetInfo pp
    let name ← storedStr info
    free info
    let key ← peerGetStatic pp
    pure (some ⟨id, name, toB32 key⟩)

/-- Number of the peer that was added. -/
def readId (pp : ℕ) : M (Option UInt32) :=
  if pp = 0 then pure none
  else do
    let id ← peerGetId pp
    pure (some id)

/-- Read and free a record. -/
def readRecord (p : ℕ) : M (Option Bytes) :=
  if p = 0 then pure none
  else do
    let b ← loadBytes p
    free p
    pure (some b)

def call [NoiseCrypto] (dvp : ℕ) : Op → M Out
  | .add name key => do
    let pp ← addPeer dvp name key
    let r ← readId pp
    pure (.added r)
  | .remove id => do
    removePeer dvp id
    pure .unit
  | .byId id => do
    let pp ← lookupById dvp id
    let r ← readPeer pp
    pure (.entry r)
  | .byKey key => do
    let pp ← lookupByStatic dvp key
    let r ← readPeer pp
    pure (.entry r)
  | .saveDevice nonce => do
    let p ← serializeDevice dvp nonce
    let r ← readRecord p
    pure (.record r)
  | .savePeer id nonce => do
    let pp ← lookupById dvp id
    let p ← serializePeer dvp pp nonce
    let r ← readRecord p
    pure (.record r)
  | .loadPeer name r => do
    let pp ← deserializePeer dvp name r
    let i ← readId pp
    pure (.added i)

def calls [NoiseCrypto] (dvp : ℕ) : List Op → M (List Out)
  | [] => pure []
  | o :: os => do
    let r ← call dvp o
    let rs ← calls dvp os
    pure (r :: rs)

/-- A heap in which nothing is allocated from `next` on. -/
def HeapOk (h : Heap) : Prop := 0 < h.next ∧ ∀ a, h.next ≤ a → h.mem a = none

end Verif.Spec.Device
