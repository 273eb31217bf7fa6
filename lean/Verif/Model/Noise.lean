import Verif.Model.Oprf

/-!
# Noise XK sessions, src/noise_xk/src/Noise_XK.c and XK.c

X25519 and ChaCha20-Poly1305 enter as a structure (`NoiseCrypto`), BLAKE2b as `Hashes.generichash64`. Secrecy and
unforgeability are not assumed, only that decryption inverts encryption and that Diffie-Hellman commutes. The
library build with libsodium (`WITH_HACL` undefined) is modelled. Every `malloc`/`calloc` succeeds. The name
strings of devices and peers, the session number and the serialisation key carry no protocol data and are left out.
A 32-bit length is the length of the list; callers pass lists shorter than `2^32`.
-/

namespace Verif

/-- X25519 and ChaCha20-Poly1305-IETF as used by the Noise library. -/
class NoiseCrypto where
  /-- `crypto_scalarmult_base` -/
  xbase : B32 → B32
  /-- `crypto_scalarmult`; `none` is the non-zero return for the all-zero result -/
  dh : B32 → B32 → Option B32
  /-- `crypto_aead_chacha20poly1305_ietf_encrypt` with key, 64-bit counter nonce, associated data, plaintext -/
  aeadEnc : B32 → UInt64 → Bytes → Bytes → Bytes
  /-- `crypto_aead_chacha20poly1305_ietf_decrypt` -/
  aeadDec : B32 → UInt64 → Bytes → Bytes → Option Bytes
  dh_comm : ∀ a b, dh a (xbase b) = dh b (xbase a)
  dh_base : ∀ a b, (dh a (xbase b)).isSome = true
  enc_length : ∀ k n ad p, (aeadEnc k n ad p).length = p.length + 16
  dec_enc : ∀ k n ad p, aeadDec k n ad (aeadEnc k n ad p) = some p
  dec_length : ∀ k n ad c p, aeadDec k n ad c = some p → c.length = p.length + 16

namespace Noise

open NoiseCrypto

/-- Error codes, Noise_XK.h:16-31 (those that occur). -/
inductive Err
  | incorrectTransition | rsRejected | unknownPeer | inputSize | dhError | decryptError | saturatedNonce | securityLevel
  deriving DecidableEq, Repr

/-- `Noise_XK_rcode` -/
inductive RCode
  | success
  | error (e : Err)
  | stuck (e : Err)
  deriving DecidableEq, Repr

/-- `Noise_XK_rcode_is_success`, XK.c:258-264 -/
def RCode.isSuccess : RCode → Bool
  | .success => true
  | _ => false

/-- `Noise_XK_ac_level_t` -/
inductive Level
  | auth (l : ℕ)
  | conf (l : ℕ)
  | none
  deriving DecidableEq, Repr

/-- `Noise_XK_encap_message_t`, XK.c:110-115 -/
structure Encap where
  level : Level
  msg : Bytes
  deriving DecidableEq, Repr

/-- `Noise_XK_pack_message_with_conf_level`, XK.c:138-169 -/
def pack (conf : ℕ) (msg : Bytes) : Encap := ⟨.conf conf, msg⟩

/-- `Noise_XK_unpack_message_with_auth_level`, XK.c:177-216 -/
def unpack (auth : ℕ) (em : Encap) : Option Bytes :=
  let ok := if em.msg.length = 0 then true else
    match em.level with
    | .auth l => decide (l ≥ auth)
    | _ => false
  if ok then some em.msg else none

/-- `Noise_XK_peer_t`, XK.c:284-294 -/
structure Peer where
  id : UInt32
  s : B32
  deriving DecidableEq, Repr

/-- `Noise_XK_device_t`, XK.c:296-317; `peers` is the linked list with the newest entry in front. -/
structure Device where
  spriv : B32
  spub : B32
  prologue : Bytes
  statesCounter : UInt32
  peers : List Peer
  peersCounter : UInt32

section
variable [NoiseCrypto]

/-- `Noise_XK_device_create`, XK.c:325-426 -/
def deviceCreate (prologue : Bytes) (spriv : B32) : Device :=
  { spriv, spub := xbase spriv, prologue, statesCounter := 1, peers := [], peersCounter := 1 }

end

/-- `Noise_XK_device_add_peer`, XK.c:697-833: the id of the new peer and the device, or `none` (NULL). -/
def deviceAddPeer (dv : Device) (rs : B32) : Option UInt32 × Device :=
  if dv.peersCounter = 4294967295 ∨ (dv.peers.find? fun p => p.s == rs).isSome then (none, dv)
  else (some dv.peersCounter,
    { dv with peers := ⟨dv.peersCounter, rs⟩ :: dv.peers, peersCounter := dv.peersCounter + 1 })

/-! ### Noise_XK.c -/

section
variable [Hashes] [NoiseCrypto]

/-- `Noise_XK_mix_hash`, Noise_XK.c:125-163 -/
def mixHash (h : B64) (x : Bytes) : B64 := Hashes.generichash64 (h.toList ++ x)

/-- `Noise_XK_hashstate_xor_key`, Noise_XK.c:169-174 -/
def xorKey (key : Bytes) (v : UInt8) : Bytes := key.map (· ^^^ v)

/-- `Noise_XK_hmac`, Noise_XK.c:178-218 -/
def hmac (key data : Bytes) : B64 :=
  let block : Bytes := if key.length ≤ 128 then key ++ List.replicate (128 - key.length) 0
    else (Hashes.generichash64 key).toList ++ List.replicate (128 - 64) 0
  let k1 := xorKey block 0x36
  let inner := Hashes.generichash64 (k1 ++ data)
  let k2 := xorKey k1 (0x36 ^^^ 0x5c)
  Hashes.generichash64 (k2 ++ inner.toList)

/-- `Noise_XK_kdf`, Noise_XK.c:221-260, first two outputs -/
def kdf (ck : B64) (key : Bytes) : B64 × B64 :=
  let secret := hmac ck.toList key
  let o1 := hmac secret.toList [1]
  let o2 := hmac secret.toList (o1.toList ++ [2])
  (o1, o2)

/-- First 32 bytes (`memcpy(k, temp, 32)`). -/
def key32 (x : B64) : B32 := toB32 (x.toList.take 32)

/-- `Noise_XK_mix_dh`, Noise_XK.c:318-344: new chaining and cipher key, or `none` if the DH fails. -/
def mixDh (sec pub : B32) (ck : B64) : Option (B64 × B32) :=
  match dh sec pub with
  | none => none
  | some k =>
    let o := kdf ck k.toList
    some (o.1, key32 o.2)

/-! ### Sessions -/

/-- Handshake part of a session state. -/
structure HS where
  step : ℕ
  cipherKey : B32
  ck : B64
  h : B64
  spriv : B32
  spub : B32
  epriv : B32
  epub : B32
  rs : B32
  re : B32

/-- Transport part of a session state (`recv_transport_message` is only read by `reached_max_security` and is left out; see `Model/SessionMem.lean`). -/
structure TS where
  h : B64
  sendKey : B32
  sendNonce : UInt64
  recvKey : B32
  recvNonce : UInt64

inductive Role
  | initiator | responder
  deriving DecidableEq, Repr

inductive SState
  | handshake (s : HS)
  | transport (s : TS)

/-- `Noise_XK_session_t`; the pointer to the device is an argument of `sessionRead`. -/
structure Session where
  role : Role
  pid : UInt32
  st : SState

/-- "Noise_XK_25519_ChaChaPoly_BLAKE2b", XK.c:1768-1777 -/
def protocolName : Bytes :=
  [78, 111, 105, 115, 101, 95, 88, 75, 95, 50, 53, 53, 49, 57, 95, 67, 104, 97, 67, 104, 97, 80, 111, 108, 121, 95, 66,
   76, 65, 75, 69, 50, 98]

/-- `calloc`ed 64 bytes with the protocol name copied to the front. -/
def h0 : B64 := ⟨(protocolName ++ List.replicate 31 0).toArray, by decide⟩

/-- `Noise_XK_session_create_initiator`, XK.c:1553-1865, with the ephemeral secret `epriv` drawn from the RNG. -/
def createInitiator (dv : Device) (pid : UInt32) (epriv : B32) : Option Session × Device :=
  if dv.statesCounter = 4294967295 then (none, dv)
  else
    match (if pid = 0 then none else dv.peers.find? fun p => p.id == pid) with
    | none => (none, dv)
    | some peer =>
      (some { role := .initiator, pid, st := .handshake
                { step := 0, cipherKey := zero32, ck := h0, h := mixHash (mixHash h0 dv.prologue) peer.s.toList,
                  spriv := dv.spriv, spub := dv.spub, epriv, epub := xbase epriv, rs := peer.s, re := zero32 } },
        { dv with statesCounter := dv.statesCounter + 1 })

/-- `Noise_XK_session_create_responder`, XK.c:1872-2079 -/
def createResponder (dv : Device) (epriv : B32) : Option Session × Device :=
  if dv.statesCounter = 4294967295 then (none, dv)
  else
    (some { role := .responder, pid := 0, st := .handshake
              { step := 0, cipherKey := zero32, ck := h0, h := mixHash (mixHash h0 dv.prologue) dv.spub.toList,
                spriv := dv.spriv, spub := dv.spub, epriv, epub := xbase epriv, rs := zero32, re := zero32 } },
      { dv with statesCounter := dv.statesCounter + 1 })

/-- Outcome of a handshake message: success with data, or an error; the handshake buffers as they are afterwards. -/
abbrev HRes (α : Type) := Except Err α × HS

/-- Initiator, message 1 (`e, es`), XK.c:2279-2341 -/
def initWrite0 (s : HS) (payload : Bytes) (outlen : ℕ) : HRes Bytes :=
  if ¬ (payload.length ≤ 4294967215 ∧ outlen = 48 + payload.length) then (.error .inputSize, s)
  else
    let h1 := mixHash s.h s.epub.toList
    match mixDh s.epriv s.rs s.ck with
    | none => (.error .dhError, { s with h := h1 })
    | some (ck, k) =>
      let c := aeadEnc k 0 h1.toList payload
      (.ok (s.epub.toList ++ c), { s with step := s.step + 1, ck, cipherKey := k, h := mixHash h1 c })

/-- Initiator, message 3 (`s, se`), XK.c:2343-2409 -/
def initWrite2 (s : HS) (payload : Bytes) (outlen : ℕ) : HRes Bytes :=
  if ¬ (payload.length ≤ 4294967215 ∧ outlen = 64 + payload.length) then (.error .inputSize, s)
  else
    let c1 := aeadEnc s.cipherKey 1 s.h.toList s.spub.toList
    let h1 := mixHash s.h c1
    match mixDh s.spriv s.re s.ck with
    | none => (.error .dhError, { s with h := h1 })
    | some (ck, k) =>
      let c2 := aeadEnc k 0 h1.toList payload
      (.ok (c1 ++ c2), { s with step := s.step + 1, ck, cipherKey := k, h := mixHash h1 c2 })

/-- Responder, message 2 (`e, ee`), XK.c:2569-2634 -/
def respWrite1 (s : HS) (payload : Bytes) (outlen : ℕ) : HRes Bytes :=
  if ¬ (payload.length ≤ 4294967215 ∧ outlen = 48 + payload.length) then (.error .inputSize, s)
  else
    let h1 := mixHash s.h s.epub.toList
    match mixDh s.epriv s.re s.ck with
    | none => (.error .dhError, { s with h := h1 })
    | some (ck, k) =>
      let c := aeadEnc k 0 h1.toList payload
      (.ok (s.epub.toList ++ c), { s with step := s.step + 1, ck, cipherKey := k, h := mixHash h1 c })

/-- Key split at the end of the handshake, XK.c:2440-2490 (initiator) and 3586-3624 (responder). -/
def split (r : Role) (s : HS) : TS :=
  let o := kdf s.ck []
  let k1 := key32 o.1
  let k2 := key32 o.2
  match r with
  | .initiator => { h := s.h, sendKey := k1, sendNonce := 0, recvKey := k2, recvNonce := 0 }
  | .responder => { h := s.h, sendKey := k2, sendNonce := 0, recvKey := k1, recvNonce := 0 }

/-- `state_handshake_write`, XK.c:2228-2911 -/
def handshakeWrite (sn : Session) (payload : Bytes) (outlen : ℕ) : Except Err Bytes × Session :=
  match sn.st with
  | .transport _ => (.error .incorrectTransition, sn)
  | .handshake s =>
    let r : HRes Bytes :=
      if s.step ≥ 3 then (.error .incorrectTransition, s)
      else match sn.role with
        | .initiator =>
          if ¬ s.step % 2 = 0 then (.error .incorrectTransition, s)
          else if s.step = 0 then initWrite0 s payload outlen else initWrite2 s payload outlen
        | .responder =>
          if s.step % 2 = 0 then (.error .incorrectTransition, s) else respWrite1 s payload outlen
    match r with
    | (.error e, s') => (.error e, { sn with st := .handshake { s' with step := 4 } })
    | (.ok out, s') =>
      (.ok out, { sn with st := if s.step = 2 then .transport (split sn.role s') else .handshake s' })

/-- `Noise_XK_decrypt_and_hash`, Noise_XK.c:297-315: plaintext and the new hash -/
def decryptAndHash (k : B32) (nonce : UInt64) (h : B64) (c : Bytes) : Option (Bytes × B64) :=
  match aeadDec k nonce h.toList c with
  | none => none
  | some p => some (p, mixHash h c)

/-- Initiator, message 2, XK.c:2985-3020 -/
def initRead1 (s : HS) (input : Bytes) (outlen : ℕ) : HRes Bytes :=
  if ¬ (outlen ≤ 4294967215 ∧ input.length = 48 + outlen) then (.error .inputSize, s)
  else
    let re := toB32 (input.take 32)
    let h1 := mixHash s.h re.toList
    match mixDh s.epriv re s.ck with
    | none => (.error .dhError, { s with h := h1, re })
    | some (ck, k) =>
      match decryptAndHash k 0 h1 (input.drop 32) with
      | none => (.error .decryptError, { s with h := h1, re, ck, cipherKey := k })
      | some (p, h2) => (.ok p, { s with step := s.step + 1, h := h2, re, ck, cipherKey := k })

/-- Responder, message 1, XK.c:3261-3296 -/
def respRead0 (s : HS) (input : Bytes) (outlen : ℕ) : HRes Bytes :=
  if ¬ (outlen ≤ 4294967215 ∧ input.length = 48 + outlen) then (.error .inputSize, s)
  else
    let re := toB32 (input.take 32)
    let h1 := mixHash s.h re.toList
    match mixDh s.spriv re s.ck with
    | none => (.error .dhError, { s with h := h1, re })
    | some (ck, k) =>
      match decryptAndHash k 0 h1 (input.drop 32) with
      | none => (.error .decryptError, { s with h := h1, re, ck, cipherKey := k })
      | some (p, h2) => (.ok p, { s with step := s.step + 1, h := h2, re, ck, cipherKey := k })

/-- Responder, message 3, XK.c:3328-3505: the initiator's static key must belong to a peer of the device, whose id
becomes the peer id of the session. -/
def respRead2 (peers : List Peer) (s : HS) (input : Bytes) (outlen : ℕ) : HRes (Bytes × UInt32) :=
  if ¬ (outlen ≤ 4294967215 ∧ input.length = 64 + outlen) then (.error .inputSize, s)
  else
    match decryptAndHash s.cipherKey 1 s.h (input.take 48) with
    | none => (.error .decryptError, s)
    | some (rsb, h1) =>
      let rs := toB32 rsb
      match peers.find? fun p => p.s == rs with
      | none => (.error .rsRejected, { s with rs, h := h1 })
      | some peer =>
        match mixDh s.epriv rs s.ck with
        | none => (.error .dhError, { s with rs, h := h1 })
        | some (ck, k) =>
          match decryptAndHash k 0 h1 (input.drop 48) with
          | none => (.error .decryptError, { s with rs, h := h1, ck, cipherKey := k })
          | some (p, h2) => (.ok (p, peer.id), { s with step := s.step + 1, rs, h := h2, ck, cipherKey := k })

/-- `state_handshake_read`, XK.c:2926-3853 -/
def handshakeRead (peers : List Peer) (sn : Session) (input : Bytes) (outlen : ℕ) : Except Err Bytes × Session :=
  match sn.st with
  | .transport _ => (.error .incorrectTransition, sn)
  | .handshake s =>
    let r : HRes (Bytes × UInt32) :=
      if s.step ≥ 3 then (.error .incorrectTransition, s)
      else match sn.role with
        | .initiator =>
          if ¬ s.step % 2 = 1 then (.error .incorrectTransition, s)
          else match initRead1 s input outlen with
            | (.error e, s') => (.error e, s')
            | (.ok p, s') => (.ok (p, sn.pid), s')
        | .responder =>
          if s.step % 2 = 1 then (.error .incorrectTransition, s)
          else if s.step = 0 then
            match respRead0 s input outlen with
            | (.error e, s') => (.error e, s')
            | (.ok p, s') => (.ok (p, sn.pid), s')
          else respRead2 peers s input outlen
    match r with
    | (.error e, s') => (.error e, { sn with st := .handshake { s' with step := 4 } })
    | (.ok (p, pid), s') =>
      (.ok p, { sn with pid, st := if s.step = 2 then .transport (split sn.role s') else .handshake s' })

/-- `state_transport_write`, XK.c:3856-4076 -/
def transportWrite (sn : Session) (p : Bytes) (clen : ℕ) : Except Err Bytes × Session :=
  match sn.st with
  | .handshake _ => (.error .incorrectTransition, sn)
  | .transport t =>
    if ¬ (p.length ≤ 4294967279 ∧ clen = p.length + 16) then (.error .inputSize, sn)
    else if t.sendNonce ≥ 18446744073709551615 then (.error .saturatedNonce, sn)
    else (.ok (aeadEnc t.sendKey t.sendNonce [] p), { sn with st := .transport { t with sendNonce := t.sendNonce + 1 } })

/-- `state_transport_read`, XK.c:4079-4339 -/
def transportRead (sn : Session) (c : Bytes) (plen : ℕ) : Except Err Bytes × Session :=
  match sn.st with
  | .handshake _ => (.error .incorrectTransition, sn)
  | .transport t =>
    if ¬ (plen ≤ 4294967279 ∧ c.length = plen + 16) then (.error .inputSize, sn)
    else if t.recvNonce ≥ 18446744073709551615 then (.error .saturatedNonce, sn)
    else
      match aeadDec t.recvKey t.recvNonce [] c with
      | none => (.error .decryptError, sn)
      | some p => (.ok p, { sn with st := .transport { t with recvNonce := t.recvNonce + 1 } })

/-- Confidentiality check in `Noise_XK_session_write`, XK.c:4389-4416 and 4506-4529. -/
def secOk (clevel : ℕ) (em : Encap) : Bool :=
  if em.msg.length = 0 then true
  else match em.level with
    | .conf req => (decide (req ≥ 2) && decide (clevel ≥ req)) ||
        (decide (req = 1) && (decide (clevel = req) || decide (clevel ≥ 3))) || decide (req = 0)
    | _ => false

/-- Length of the next handshake message, XK.c:4474-4495 -/
def nextLen (step len : ℕ) : Option ℕ :=
  if step = 0 then (if len ≤ 4294967215 then some (len + 48) else none)
  else if step = 1 then (if len ≤ 4294967215 then some (len + 48) else none)
  else if step = 2 then (if len ≤ 4294967215 then some (len + 64) else none)
  else none

/-- `Noise_XK_session_write`, XK.c:4362-4815: return code, message (`*out`, `none` for NULL) and session. -/
def sessionWrite (em : Encap) (sn : Session) : RCode × Option Bytes × Session :=
  match sn.st with
  | .transport _ =>
    if em.msg.length ≤ 4294967279 then
      if secOk 5 em then
        match transportWrite sn em.msg (em.msg.length + 16) with
        | (.ok out, sn') => (.success, some out, sn')
        | (.error e, sn') => (.error e, none, sn')
      else (.error .securityLevel, none, sn)
    else (.error .inputSize, none, sn)
  | .handshake s =>
    if s.step ≥ 4 then (.stuck .incorrectTransition, none, sn)
    else
      match nextLen s.step em.msg.length with
      | none => (.error .inputSize, none, sn)
      | some l =>
        if secOk (if s.step = 0 then 2 else if s.step = 1 then 1 else 5) em then
          match handshakeWrite sn em.msg l with
          | (.ok out, sn') => (.success, some out, sn')
          | (.error e, sn') => (.stuck e, none, sn')
        else (.error .securityLevel, none, sn)

/-- Payload length of a received handshake message, XK.c:4914-4932 -/
def payloadLen (step inlen : ℕ) : Option ℕ :=
  if step = 0 then (if inlen ≥ 48 then some (inlen - 48) else none)
  else if step = 1 then (if inlen ≥ 48 then some (inlen - 48) else none)
  else if step = 2 then (if inlen ≥ 64 then some (inlen - 64) else none)
  else none

/-- Is it this side's turn to read a handshake message? XK.c:4911 and 5082 -/
def readTurn (r : Role) (step : ℕ) : Bool :=
  match r with
  | .initiator => decide (step % 2 = 1) && decide (step < 3)
  | .responder => decide (step % 2 = 0) && decide (step < 3)

/-- `Noise_XK_session_read`, XK.c:4825-5193; `peers` is the peer list of the device the session belongs to. -/
def sessionRead (peers : List Peer) (sn : Session) (input : Bytes) : RCode × Option Encap × Session :=
  match sn.st with
  | .transport _ =>
    if input.length ≥ 16 then
      match transportRead sn input (input.length - 16) with
      | (.ok p, sn') => (.success, some ⟨.auth 2, p⟩, sn')
      | (.error e, sn') => (.error e, none, sn')
    else (.error .inputSize, none, sn)
  | .handshake s =>
    if s.step ≥ 4 then (.stuck .incorrectTransition, none, sn)
    else if readTurn sn.role s.step then
      match payloadLen s.step input.length with
      | none => (.error .inputSize, none, sn)
      | some l =>
        match handshakeRead peers sn input l with
        | (.ok p, sn') => (.success, some ⟨.auth (if s.step = 0 then 0 else 2), p⟩, sn')
        | (.error e, sn') => (.stuck e, none, sn')
    else (.error .incorrectTransition, none, sn)

/-- `Noise_XK_session_get_key`, tp-dkg.c:358-365 (`none` is NULL) -/
def sessionGetKey (sn : Session) : Option B32 :=
  match sn.st with
  | .handshake _ => none
  | .transport t => match sn.role with
    | .initiator => some t.sendKey
    | .responder => some t.recvKey

end

end Noise

end Verif
