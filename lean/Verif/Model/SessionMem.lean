import Verif.Model.Device

/-!
# Noise sessions on the heap, src/noise_xk/src/XK.c:1553-2202, 2228-5193 and 5325-5761

`Model/Noise.lean` describes a session by a record of values. Here the same functions work on the heap of
`Model/Device.lean`: the session is a block of pointers, keys, hashes and names are blocks of their own, and messages
are allocated and released as in the code.

* The generated code treats initiator and responder in two copies of the same statements where nothing differs between
  them; such copies are one definition here that cites both places.
* `memcpy` and the functions that write into a buffer are `writeAt`; they fail outside of the block. A failed decryption
  leaves the output buffer as it is.
* Stack buffers (`epriv`, `epub`, `temp_k1`, `temp_k2`) are values.
* The bytes of a received message are an argument: the caller's memory.
* A responder's transport state has no flag for received messages (`heard`); it is set here and not used.
* The output parameters `*out_len`, `*out` and `*payload_out` are results.
-/

namespace Verif

namespace Noise.Mem

open NoiseCrypto

/-- The 64 bytes of a list, zeros behind its end. -/
def toB64 (l : Bytes) : B64 := Vector.ofFn fun i => l.getD i 0

/-- `KRML_HOST_CALLOC` -/
def calloc (n : ℕ) : M ℕ := alloc (.bytes (List.replicate n 0))

/-- Write into a block of bytes at an offset; writing nothing does not use the pointer. -/
def writeAt (a off : ℕ) (b : Bytes) : M Unit :=
  if b = [] then pure ()
  else do
    let old ← loadBytes a
    if off + b.length ≤ old.length then store a (.bytes (old.take off ++ b ++ old.drop (off + b.length)))
    else ub .oob

/-- Read `n` bytes; reading nothing does not use the pointer. -/
def loadBuf (p n : ℕ) : M Bytes := if n = 0 then pure [] else loadN p n

def loadSession (a : ℕ) : M SessionRec := do
  match ← load a with
  | .session s => pure s
  | _ => ub .oob

def loadEncap (a : ℕ) : M (Level × ℕ × ℕ) := do
  match ← load a with
  | .encap l n p => pure (l, n, p)
  | _ => ub .oob

def loadWord (a : ℕ) : M UInt32 := do
  match ← load a with
  | .word n => pure n
  | _ => ub .oob

/-- Copy of the string behind a `Noise_XK_noise_string *`: XK.c:1641-1684, 1690-1733, 1905-1948, 3388-3420 -/
def copyOf (p : ℕ) : M ℕ := do
  let s ← loadStr p
  let b ← storedStr s
  copyStr b

/-! ### Encapsulated messages -/

/-- `Noise_XK_pack_message_with_conf_level`, XK.c:137-169 -/
def packMsg (conf : ℕ) (msg : Bytes) : M ℕ := do
  let m ← if msg.length > 0 then alloc (.bytes msg) else pure 0
  alloc (.encap (.conf conf) msg.length m)

/-- `Noise_XK_encap_message_p_free`, XK.c:129-135 -/
def encapFree (emp : ℕ) : M Unit := do
  let em ← loadEncap emp
  freeSome em.2.2
  free emp

/-- The comparison of levels in `Noise_XK_unpack_message_with_auth_level`, XK.c:188-194 -/
def authOk (auth : ℕ) : Level → Bool
  | .auth l => decide (l ≥ auth)
  | _ => false

/-- `Noise_XK_unpack_message_with_auth_level`, XK.c:176-216: return value, `*out_msg_len` and `*out_msg` -/
def unpackMsg (auth : ℕ) (emp : ℕ) : M (Bool × ℕ × ℕ) := do
  let em ← loadEncap emp
  let ok := if em.2.1 = 0 then true else authOk auth em.1
  if ok then
    if em.2.1 > 0 then do
      let b ← loadN em.2.2 em.2.1
      let m ← alloc (.bytes b)
      pure (true, em.2.1, m)
    else pure (true, em.2.1, 0)
  else pure (false, 0, 0)

section
variable [Hashes] [NoiseCrypto]

/-! ### Symmetric state -/

/-- `Noise_XK_mix_hash`, Noise_XK.c:125-163 -/
def mixHashAt (h : ℕ) (x : Bytes) : M Unit := do
  let v ← loadN h 64
  writeAt h 0 (mixHash (toB64 v) x).toList

/-- `Noise_XK_mix_dh`, Noise_XK.c:316-344: false for the error -/
def mixDhAt (sec pub k ck : ℕ) : M Bool := do
  let s ← loadN sec 32
  let p ← loadN pub 32
  let c ← loadN ck 64
  match mixDh (toB32 s) (toB32 p) (toB64 c) with
  | none => pure false
  | some r => do
    writeAt ck 0 r.1.toList
    writeAt k 0 r.2.toList
    pure true

/-- `Noise_XK_encrypt_and_hash`, Noise_XK.c:280-294, with the output at `out + off` -/
def encryptAndHashAt (msg : Bytes) (out off k h : ℕ) (nonce : UInt64) : M Unit := do
  let key ← loadN k 32
  let hv ← loadN h 64
  let c := aeadEnc (toB32 key) nonce hv msg
  writeAt out off c
  writeAt h 0 (mixHash (toB64 hv) c).toList

/-- `Noise_XK_decrypt_and_hash`, Noise_XK.c:297-315: false for the error -/
def decryptAndHashAt (out : ℕ) (c : Bytes) (k h : ℕ) (nonce : UInt64) : M Bool := do
  let key ← loadN k 32
  let hv ← loadN h 64
  match decryptAndHash (toB32 key) nonce (toB64 hv) c with
  | none => pure false
  | some r => do
    writeAt out 0 r.1
    writeAt h 0 r.2.toList
    pure true

/-! ### Creating and releasing sessions -/

/-- Buffers of a new handshake and their first contents, XK.c:1747-1804 and 1962-2024; `rs` is the peer's static key at
the initiator. -/
def newState (dv : DeviceRec) (spriv spub : ℕ) (epriv : B32) (rs : Option ℕ) : M HsPtr := do
  let k ← calloc 32
  let ck ← calloc 64
  let h ← calloc 64
  let ep ← calloc 32
  let eb ← calloc 32
  let r ← calloc 32
  let re ← calloc 32
  writeAt h 0 protocolName
  let hv ← loadN h 64
  writeAt ck 0 hv
  let prlg ← loadBuf dv.prlg dv.prlgLen
  mixHashAt h prlg
  writeAt ep 0 epriv.toList
  writeAt eb 0 (xbase epriv).toList
  (match rs with
    | some a => do
      let v ← loadN a 32
      writeAt r 0 v
      let v' ← loadN a 32
      mixHashAt h v'
    | none => do
      let v ← loadN spub 32
      mixHashAt h v)
  pure { step := 0, k, ck, h, spriv, spub, epriv := ep, epub := eb, rs := r, re }

/-- Copy of a 32-byte block: XK.c:1635-1640, 1899-1904 -/
def copyKey (a : ℕ) : M ℕ := do
  let v ← loadN a 32
  alloc (.bytes v)

/-- `Noise_XK_session_create_initiator`, XK.c:1553-1865, with the ephemeral secret drawn from the RNG; the search for the
peer is the code of `device_lookup_peer_by_id`. -/
def createInit (dvp : ℕ) (pid : UInt32) (epriv : B32) : M ℕ := do
  let dv ← loadDevice dvp
  if dv.states = 4294967295 then pure 0
  else do
    let pp ← lookupById dvp pid
    if pp = 0 then pure 0
    else do
      let spriv ← copyKey dv.spriv
      let spub ← copyKey dv.spub
      let str0 ← copyOf dv.info
      let info ← alloc (.str str0)
      let peer ← loadPeer pp
      let str ← copyOf peer.2.1
      let pinfo ← alloc (.str str)
      store dvp (.device { dv with states := dv.states + 1 })
      let st ← newState dv spriv spub epriv (some peer.2.2)
      alloc (.session { role := .initiator, st := .handshake st, id := dv.states, info, spriv, spub, pid, pinfo,
                        dv := dvp })

/-- `Noise_XK_session_create_responder`, XK.c:1872-2079 -/
def createResp (dvp : ℕ) (epriv : B32) : M ℕ := do
  let dv ← loadDevice dvp
  if dv.states = 4294967295 then pure 0
  else do
    let spriv ← copyKey dv.spriv
    let spub ← copyKey dv.spub
    let str ← copyOf dv.info
    let info ← alloc (.str str)
    let pinfo ← alloc (.str 0)
    store dvp (.device { dv with states := dv.states + 1 })
    let st ← newState dv spriv spub epriv none
    alloc (.session { role := .responder, st := .handshake st, id := dv.states, info, spriv, spub, pid := 0, pinfo,
                      dv := dvp })

/-- `Noise_XK_session_free`, XK.c:2087-2202. Nothing is zeroed. -/
def sessionFree (snp : ℕ) : M Unit := do
  let sn ← loadSession snp
  (match sn.st with
    | .handshake p => do
      free p.k
      free p.ck
      free p.h
      free p.epriv
      free p.epub
      free p.rs
      free p.re
    | .transport p => do
      free p.h
      free p.sendKey
      free p.recvKey)
  let str ← loadStr sn.info
  freeSome str
  free sn.info
  let str0 ← loadStr sn.pinfo
  freeSome str0
  free sn.pinfo
  free sn.spriv
  free sn.spub
  free snp

/-! ### Handshake messages -/

/-- Initiator, message 1, XK.c:2283-2353 -/
def initWrite0At (p : HsPtr) (plen payload outlen out : ℕ) : M (Except Err HsPtr) :=
  if ¬ (plen ≤ 4294967215 ∧ outlen = 48 + plen) then pure (.error .inputSize)
  else do
    let e ← loadN p.epub 32
    mixHashAt p.h e
    let e' ← loadN p.epub 32
    writeAt out 0 e'
    if ← mixDhAt p.epriv p.rs p.k p.ck then do
      let m ← loadBuf payload plen
      encryptAndHashAt m out 32 p.k p.h 0
      pure (.ok { p with step := p.step + 1 })
    else pure (.error .dhError)

/-- Initiator, message 3, XK.c:2354-2427 -/
def initWrite2At (p : HsPtr) (plen payload outlen out : ℕ) : M (Except Err HsPtr) :=
  if ¬ (plen ≤ 4294967215 ∧ outlen = 64 + plen) then pure (.error .inputSize)
  else do
    let s ← loadN p.spub 32
    encryptAndHashAt s out 0 p.k p.h 1
    if ← mixDhAt p.spriv p.re p.k p.ck then do
      let m ← loadBuf payload plen
      encryptAndHashAt m out 48 p.k p.h 0
      pure (.ok { p with step := p.step + 1 })
    else pure (.error .dhError)

/-- Responder, message 2, XK.c:2567-2636 -/
def respWrite1At (p : HsPtr) (plen payload outlen out : ℕ) : M (Except Err HsPtr) :=
  if ¬ (plen ≤ 4294967215 ∧ outlen = 48 + plen) then pure (.error .inputSize)
  else do
    let e ← loadN p.epub 32
    mixHashAt p.h e
    let e' ← loadN p.epub 32
    writeAt out 0 e'
    if ← mixDhAt p.epriv p.re p.k p.ck then do
      let m ← loadBuf payload plen
      encryptAndHashAt m out 32 p.k p.h 0
      pure (.ok { p with step := p.step + 1 })
    else pure (.error .dhError)

/-- Split, XK.c:2440-2490, 2646-2695, 3120-3170 and 3582-3631: new key blocks, the other blocks of the handshake except
the hash are released as they are. -/
def splitAt (r : Role) (p : HsPtr) : M StPtr := do
  let k1 ← calloc 32
  let k2 ← calloc 32
  let ck ← loadN p.ck 64
  let o := kdf (toB64 ck) []
  writeAt k1 0 (key32 o.1).toList
  writeAt k2 0 (key32 o.2).toList
  free p.k
  free p.ck
  free p.epriv
  free p.epub
  free p.rs
  free p.re
  match r with
  | .initiator =>
    pure (.transport { h := p.h, heard := false, sendKey := k1, sendNonce := 0, recvKey := k2, recvNonce := 0 })
  | .responder =>
    pure (.transport { h := p.h, heard := false, sendKey := k2, sendNonce := 0, recvKey := k1, recvNonce := 0 })

/-- The end of `state_handshake_write` and `state_handshake_read`, XK.c:2744-2909 and 3680-3851: after an error the
handshake is stuck. -/
def finish (snp : ℕ) (res : Except Err SessionRec) : M (Option Err) :=
  match res with
  | .error e => do
    let sn ← loadSession snp
    (match sn.st with
      | .handshake p => store snp (.session { sn with st := .handshake { p with step := 4 } })
      | .transport p => store snp (.session { sn with st := .transport p }))
    pure (some e)
  | .ok sn => do
    store snp (.session sn)
    pure none

/-- `state_handshake_write`, XK.c:2226-2910: `none` is success -/
def stateHandshakeWrite (plen payload snp outlen out : ℕ) : M (Option Err) := do
  let sn ← loadSession snp
  let res : Except Err SessionRec ← (match sn.st with
    | .transport _ => pure (.error .incorrectTransition)
    | .handshake p => do
      let r : Except Err HsPtr ← (
        if p.step ≥ 3 then pure (.error .incorrectTransition)
        else match sn.role with
          | .initiator =>
            if ¬ p.step % 2 = 0 then pure (.error .incorrectTransition)
            else if p.step = 0 then initWrite0At p plen payload outlen out
            else initWrite2At p plen payload outlen out
          | .responder =>
            if p.step % 2 = 0 then pure (.error .incorrectTransition)
            else respWrite1At p plen payload outlen out)
      match r with
      | .error e => pure (.error e)
      | .ok p1 => do
        let st ← (if p.step = 2 then splitAt sn.role p1 else pure (.handshake p1))
        pure (.ok { sn with st }))
  finish snp res

/-- Initiator, message 2, XK.c:2985-3041 -/
def initRead1At (p : HsPtr) (plen out : ℕ) (input : Bytes) : M (Except Err HsPtr) :=
  if ¬ (plen ≤ 4294967215 ∧ input.length = 48 + plen) then pure (.error .inputSize)
  else do
    mixHashAt p.h (input.take 32)
    writeAt p.re 0 (input.take 32)
    if ← mixDhAt p.epriv p.re p.k p.ck then do
      if ← decryptAndHashAt out (input.drop 32) p.k p.h 0 then pure (.ok { p with step := p.step + 1 })
      else pure (.error .decryptError)
    else pure (.error .dhError)

/-- Responder, message 1, XK.c:3257-3320 -/
def respRead0At (p : HsPtr) (plen out : ℕ) (input : Bytes) : M (Except Err HsPtr) :=
  if ¬ (plen ≤ 4294967215 ∧ input.length = 48 + plen) then pure (.error .inputSize)
  else do
    mixHashAt p.h (input.take 32)
    writeAt p.re 0 (input.take 32)
    if ← mixDhAt p.spriv p.re p.k p.ck then do
      if ← decryptAndHashAt out (input.drop 32) p.k p.h 0 then pure (.ok { p with step := p.step + 1 })
      else pure (.error .decryptError)
    else pure (.error .dhError)

/-- Responder, message 3, XK.c:3324-3490: the peer with the static key of the initiator is searched, its name is copied
to the session and its number to `*pid_ptr`. -/
def respRead2At (sn : SessionRec) (dv : DeviceRec) (p : HsPtr) (pidp plen out : ℕ) (input : Bytes) :
    M (Except Err HsPtr) :=
  if ¬ (plen ≤ 4294967215 ∧ input.length = 64 + plen) then pure (.error .inputSize)
  else do
    if ← decryptAndHashAt p.rs (input.take 48) p.k p.h 1 then do
      let llt ← loadHead dv.peers
      let rs ← loadN p.rs 32
      let pp ← (do
        let c ← find (sameStatic rs) llt
        cellData c)
      if pp ≠ 0 then do
        let peer ← loadPeer pp
        let str ← copyOf peer.2.1
        store sn.pinfo (.str str)
        store pidp (.word peer.1)
        if ← mixDhAt p.epriv p.rs p.k p.ck then do
          if ← decryptAndHashAt out (input.drop 48) p.k p.h 0 then pure (.ok { p with step := p.step + 1 })
          else pure (.error .decryptError)
        else pure (.error .dhError)
      else do
        store pidp (.word 0)
        pure (.error .rsRejected)
    else pure (.error .decryptError)

/-- `state_handshake_read`, XK.c:2925-3853 -/
def stateHandshakeRead (plen out snp : ℕ) (input : Bytes) : M (Option Err) := do
  let sn ← loadSession snp
  let pidp ← alloc (.word sn.pid)
  let res : Except Err SessionRec ← (match sn.st with
    | .transport _ => pure (.error .incorrectTransition)
    | .handshake p => do
      let r : Except Err HsPtr ← (
        if p.step ≥ 3 then pure (.error .incorrectTransition)
        else match sn.role with
          | .initiator =>
            if ¬ p.step % 2 = 1 then pure (.error .incorrectTransition)
            else initRead1At p plen out input
          | .responder =>
            if p.step % 2 = 1 then pure (.error .incorrectTransition)
            else do
              let dv ← loadDevice sn.dv
              if p.step = 0 then respRead0At p plen out input
              else respRead2At sn dv p pidp plen out input)
      match r with
      | .error e => pure (.error e)
      | .ok p1 =>
        if ¬ p.step = 2 then pure (.ok { sn with st := .handshake p1 })
        else do
          let pid ← loadWord pidp
          let st ← splitAt sn.role p1
          pure (.ok { sn with pid, st }))
  free pidp
  finish snp res

/-! ### Transport messages -/

/-- `state_transport_write`, XK.c:3855-4077 -/
def stateTransportWrite (plen payload clen out snp : ℕ) : M (Option Err) := do
  let sn ← loadSession snp
  match sn.st with
  | .handshake _ => pure (some .incorrectTransition)
  | .transport p =>
    if ¬ (plen ≤ 4294967279 ∧ clen = plen + 16) then pure (some .inputSize)
    else if p.sendNonce ≥ 18446744073709551615 then pure (some .saturatedNonce)
    else do
      let key ← loadN p.sendKey 32
      let m ← loadBuf payload plen
      writeAt out 0 (aeadEnc (toB32 key) p.sendNonce [] m)
      store snp (.session { sn with st := .transport { p with sendNonce := p.sendNonce + 1 } })
      pure none

/-- `state_transport_read`, XK.c:4079-4339 -/
def stateTransportRead (plen out : ℕ) (c : Bytes) (snp : ℕ) : M (Option Err) := do
  let sn ← loadSession snp
  match sn.st with
  | .handshake _ => pure (some .incorrectTransition)
  | .transport p =>
    if ¬ (plen ≤ 4294967279 ∧ c.length = plen + 16) then pure (some .inputSize)
    else if p.recvNonce ≥ 18446744073709551615 then pure (some .saturatedNonce)
    else do
      let key ← loadN p.recvKey 32
      match aeadDec (toB32 key) p.recvNonce [] c with
      | none => pure (some .decryptError)
      | some m => do
        writeAt out 0 m
        store snp (.session { sn with st := .transport { p with heard := true, recvNonce := p.recvNonce + 1 } })
        pure none

/-! ### Messages -/

/-- Confidentiality check, XK.c:4391-4415, 4499-4524, 4625-4644 and 4728-4753 -/
def levelOk (clevel len : ℕ) (l : Level) : Bool :=
  if len = 0 then true
  else match l with
    | .conf req => (decide (req ≥ 2) && decide (clevel ≥ req)) ||
        (decide (req = 1) && (decide (clevel = req) || decide (clevel ≥ 3))) || decide (req = 0)
    | _ => false

/-- `Noise_XK_session_write`, XK.c:4361-4815: return code, `*out_len` and `*out` -/
def sessionWriteAt (emp snp : ℕ) : M (RCode × ℕ × ℕ) := do
  let sn ← loadSession snp
  match sn.st with
  | .transport _ => do
    let em ← loadEncap emp
    if em.2.1 ≤ 4294967279 then
      if levelOk 5 em.2.1 em.1 then do
        let outlen := em.2.1 + 16
        let out ← calloc outlen
        match ← stateTransportWrite em.2.1 em.2.2 outlen out snp with
        | none => pure (.success, outlen, out)
        | some e => do
          free out
          pure (.error e, 0, 0)
      else pure (.error .securityLevel, 0, 0)
    else pure (.error .inputSize, 0, 0)
  | .handshake p =>
    if p.step ≥ 4 then pure (.stuck .incorrectTransition, 0, 0)
    else do
      let em ← loadEncap emp
      match nextLen p.step em.2.1 with
      | none => pure (.error .inputSize, 0, 0)
      | some outlen =>
        if levelOk (if p.step = 0 then 2 else if p.step = 1 then 1 else 5) em.2.1 em.1 then do
          let out ← calloc outlen
          match ← stateHandshakeWrite em.2.1 em.2.2 snp outlen out with
          | none => pure (.success, outlen, out)
          | some e => do
            free out
            pure (.stuck e, 0, 0)
        else pure (.error .securityLevel, 0, 0)

/-- `Noise_XK_session_read`, XK.c:4824-5193: return code and `*payload_out` -/
def sessionReadAt (snp : ℕ) (input : Bytes) : M (RCode × ℕ) := do
  let sn ← loadSession snp
  match sn.st with
  | .transport _ =>
    if input.length ≥ 16 then do
      let outlen := input.length - 16
      let out ← (if outlen > 0 then calloc outlen else pure 0)
      match ← stateTransportRead outlen out input snp with
      | none => do
        let em ← alloc (.encap (.auth 2) outlen out)
        pure (.success, em)
      | some e => do
        freeSome out
        pure (.error e, 0)
    else pure (.error .inputSize, 0)
  | .handshake p =>
    if p.step ≥ 4 then pure (.stuck .incorrectTransition, 0)
    else if readTurn sn.role p.step then
      match payloadLen p.step input.length with
      | none => pure (.error .inputSize, 0)
      | some outlen => do
        let out ← (if outlen > 0 then calloc outlen else pure 0)
        match ← stateHandshakeRead outlen out snp input with
        | none => do
          let em ← alloc (.encap (.auth (if p.step = 0 then 0 else 2)) outlen out)
          pure (.success, em)
        | some e => do
          freeSome out
          pure (.stuck e, 0)
    else pure (.error .incorrectTransition, 0)

end

/-! ### Questions -/

inductive Status
  | handshakeRead | handshakeWrite | transport
  deriving DecidableEq, Repr

/-- `Noise_XK_session_get_status`, XK.c:5325-5378 -/
def getStatus (snp : ℕ) : M Status := do
  let sn ← loadSession snp
  match sn.st with
  | .transport _ => pure .transport
  | .handshake p =>
    match sn.role with
    | .initiator => pure (if p.step % 2 = 0 then .handshakeWrite else .handshakeRead)
    | .responder => pure (if p.step % 2 = 0 then .handshakeRead else .handshakeWrite)

/-- `Noise_XK_session_get_hash`, XK.c:5388-5420 -/
def getHash (snp : ℕ) : M Bytes := do
  let sn ← loadSession snp
  match sn.st with
  | .transport p => loadN p.h 64
  | .handshake p => loadN p.h 64

/-- `Noise_XK_session_get_id`, XK.c:5425-5440 -/
def getId (snp : ℕ) : M UInt32 := do
  let sn ← loadSession snp
  pure sn.id

/-- `Noise_XK_session_get_info`, XK.c:5445-5555: pointer to a copy of the name, NULL if it is empty -/
def getInfo (snp : ℕ) : M ℕ := do
  let sn ← loadSession snp
  copyOf sn.info

/-- `Noise_XK_session_get_peer_id`, XK.c:5567-5582 -/
def getPeerId (snp : ℕ) : M UInt32 := do
  let sn ← loadSession snp
  pure sn.pid

/-- `Noise_XK_session_get_peer_info`, XK.c:5590-5710: `none` is the return value false -/
def getPeerInfo (snp : ℕ) : M (Option ℕ) := do
  let sn ← loadSession snp
  if sn.pid ≠ 0 then do
    let p ← copyOf sn.pinfo
    pure (some p)
  else pure none

/-- `Noise_XK_session_reached_max_security`, XK.c:5728-5766 -/
def reachedMax (snp : ℕ) : M Bool := do
  let sn ← loadSession snp
  match sn.st with
  | .handshake _ => pure false
  | .transport p =>
    match sn.role with
    | .initiator => pure p.heard
    | .responder => pure true

/-- `Noise_XK_session_get_key`, src/tp-dkg.c:358-365, and the 32 bytes behind the pointer; `none` is NULL -/
def getKey (snp : ℕ) : M (Option Bytes) := do
  let sn ← loadSession snp
  match sn.st with
  | .handshake _ => pure none
  | .transport p => do
    let k ← loadN (match sn.role with
      | .initiator => p.sendKey
      | .responder => p.recvKey) 32
    pure (some k)

end Noise.Mem

end Verif
