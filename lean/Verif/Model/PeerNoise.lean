import Verif.Model.Peer
import Verif.Model.SessionMem

/-!
# The Noise helpers of the key generation on the heap, src/tp-dkg.c:157-365

`Model/Peer.lean` describes these helpers on sessions as values and marks a pointer as live or freed. Here they are the
calls that the code makes on the heap of `Model/SessionMem.lean`: a slot of `noise_ins` or `noise_outs` is an address, and
every message is allocated and freed where the code does it.

* The results are the return value, `*session` afterwards and the bytes that are copied to the output.
* The pointers `msg`, `outmsg` and `output` are not NULL, as at every call; `tpdkg_noise_decrypt` is called with NULL for
  an empty output only.
* The log lines read the name of the peer only in `tpdkg_finish_noise_handshake`; that is kept.
-/

namespace Verif

namespace Noise.Mem

open NoiseCrypto

/-- `snprintf(rname, sizeof rname, "dkg peer %02x", i+1)`, tp-dkg.c:858 and 921 -/
def rname (i : ℕ) : Bytes :=
  [100, 107, 103, 32, 112, 101, 101, 114, 32] ++ (if i + 1 < 16 then [48] else []) ++
    (Nat.toDigits 16 (i + 1)).map fun c => UInt8.ofNat c.toNat

section
variable [Hashes] [NoiseCrypto]

/-- `tpdkg_init_noise_handshake`, tp-dkg.c:157-191 -/
def initNoiseAt (dvp slot : ℕ) (name : Bytes) (rpk epriv : B32) : M (Int × ℕ × Option Bytes) := do
  let peer ← addPeer dvp (some name) rpk
  if peer = 0 then pure (1, slot, none)
  else do
    let pid ← peerGetId peer
    let sn ← createInit dvp pid epriv
    if sn = 0 then pure (2, sn, none)
    else do
      let em ← packMsg 0 []
      let r ← sessionWriteAt em sn
      encapFree em
      if !r.1.isSuccess then do
        sessionFree sn
        pure (3, sn, none)
      else if r.2.1 ≠ 48 then do
        sessionFree sn
        free r.2.2
        pure (4, sn, none)
      else do
        let b ← loadN r.2.2 r.2.1
        free r.2.2
        pure (0, sn, some b)

/-- `tpdkg_respond_noise_handshake`, tp-dkg.c:193-239. After the third error `encap_msg` is lost. -/
def respondNoiseAt (dvp : ℕ) (inmsg : Bytes) (epriv : B32) : M (Int × ℕ × Option Bytes) := do
  let sn ← createResp dvp epriv
  if sn = 0 then pure (1, sn, none)
  else do
    let r ← sessionReadAt sn inmsg
    if !r.1.isSuccess then do
      sessionFree sn
      pure (2, sn, none)
    else do
      let u ← unpackMsg 0 r.2
      if !u.1 then do
        sessionFree sn
        pure (3, sn, none)
      else do
        encapFree r.2
        let em ← packMsg 0 []
        let r ← sessionWriteAt em sn
        encapFree em
        if !r.1.isSuccess then do
          sessionFree sn
          pure (4, sn, none)
        else if r.2.1 ≠ 48 then do
          sessionFree sn
          free r.2.2
          pure (4, sn, none)
        else do
          let b ← loadN r.2.2 r.2.1
          free r.2.2
          pure (0, sn, some b)

/-- The rest of `tpdkg_finish_noise_handshake`, tp-dkg.c:265-282. After the fifth error `encap_msg` is lost. -/
def finishReadAt (slot : ℕ) (msg : Bytes) : M Int := do
  let r ← sessionReadAt slot msg
  if !r.1.isSuccess then do
    sessionFree slot
    pure 4
  else do
    let u ← unpackMsg 0 r.2
    if !u.1 then do
      sessionFree slot
      pure 5
    else do
      encapFree r.2
      pure 0

/-- `tpdkg_finish_noise_handshake`, tp-dkg.c:241-283 -/
def finishNoiseAt (log : Bool) (dvp slot : ℕ) (msg : Bytes) : M Int := do
  if slot = 0 then pure 1
  else if log then do
    let pid ← getPeerId slot
    let peer ← lookupById dvp pid
    if peer = 0 then do
      sessionFree slot
      pure 2
    else do
      let pinfo ← peerGetInfo peer
      if pinfo = 0 then do
        sessionFree slot
        pure 3
      else do
        let _ ← storedStr pinfo
        free pinfo
        finishReadAt slot msg
  else finishReadAt slot msg

/-- `tpdkg_noise_encrypt`, tp-dkg.c:285-314 -/
def encryptNoiseAt (slot : ℕ) (input : Bytes) (outputLen : ℕ) : M (Int × Option Bytes) := do
  if slot = 0 then pure (1, none)
  else if input.length > 1024 then pure (2, none)
  else do
    let em ← packMsg 5 input
    let r ← sessionWriteAt em slot
    encapFree em
    if !r.1.isSuccess then pure (3, none)
    else if r.2.1 ≠ outputLen then do
      freeSome r.2.2
      pure (4, none)
    else if r.2.2 = 0 then pure (6, none)
    else do
      let b ← loadN r.2.2 r.2.1
      free r.2.2
      pure (0, some b)

/-- `tpdkg_noise_decrypt`, tp-dkg.c:316-352. After the fourth error `encap_msg` is lost; an empty text is not copied. -/
def decryptNoiseAt (slot : ℕ) (input : Bytes) (outputLen : ℕ) : M (Int × Option Bytes) := do
  if slot = 0 then pure (1, none)
  else if input.length > 1024 then pure (2, none)
  else do
    let r ← sessionReadAt slot input
    if !r.1.isSuccess then pure (3, none)
    else do
      let u ← unpackMsg 2 r.2
      if !u.1 then pure (4, none)
      else do
        encapFree r.2
        if u.2.1 ≠ outputLen then do
          freeSome u.2.2
          pure (5, none)
        else if u.2.2 ≠ 0 then do
          let b ← loadN u.2.2 u.2.1
          free u.2.2
          pure (0, some b)
        else pure (0, some [])

end

/-- `Noise_XK_session_get_key(p)` and the read of 32 bytes behind the result, tp-dkg.c:1066, 1131 and 1319 -/
def keyNoiseAt (slot : ℕ) : M Bytes := do
  match ← getKey slot with
  | none => ub .null
  | some k => pure k

/-- A slot in `tpdkg_peer_free`, tp-dkg.c:598-599 -/
def freeSlotAt (slot : ℕ) : M Unit := if slot ≠ 0 then sessionFree slot else pure ()

end Noise.Mem

end Verif
