import Verif.Model.Prim

/-!
# The handshake and transport messages on memory, src/noise_xk/src/XK.c:2228-4361

`Model/Noise.lean` describes the messages as functions of values. Here they work on the bytes of the address space with the
functions of `Model/Prim.lean`.

* The struct of the session is not in this memory; its pointers and numbers are arguments and results.
* The frames of the callees are at `sp`.
* The 32 bytes of the two transport keys are allocated by the caller of the model (`KRML_HOST_CALLOC` in the code) and the
  buffers of the handshake are not freed here; `Model/SessionMem.lean` has both.
* The copy of the peer's name (XK.c:3390-3436) is left out. A peer is the address of its key and its number.
-/

namespace Verif.Prim

open Noise (Err Role)

/-- The pointers of `case_IMS_Handshake`, XK.c:2252-2260 -/
structure Ptrs where
  cipher : ℕ
  ck : ℕ
  h : ℕ
  spriv : ℕ
  spub : ℕ
  epriv : ℕ
  epub : ℕ
  rs : ℕ
  re : ℕ

/-- The state after a message: the next step, or the transport keys. -/
inductive Next
  | handshake (step : UInt32)
  | transport (sendKey recvKey : ℕ)
  deriving DecidableEq, Repr

section
variable [Hashes] [NoiseCrypto] [Aead]

/-- Last token and payload of a message to be sent, XK.c:2292-2308, 2358-2374 and 2580-2596 -/
def mixSeal (sp : ℕ) (p : Ptrs) (sec pub : ℕ) (plen : UInt32) (payload payloadOut : ℕ) : P (Option Err) := do
  let r ← mixDh sp sec pub p.cipher p.ck
  if r then do
    encryptAndHash sp plen payload payloadOut p.cipher p.h 0
    pure none
  else pure (some .dhError)

/-- Initiator, message 1, XK.c:2279-2341 -/
def initWrite0 (sp : ℕ) (p : Ptrs) (plen : UInt32) (payload : ℕ) (outlen : UInt32) (out : ℕ) : P (Option Err) :=
  if ¬ (plen ≤ 4294967215 ∧ outlen = 48 + plen) then pure (some .inputSize)
  else do
    mixHash p.h 32 p.epub
    memcpy out p.epub 32
    mixSeal sp p p.epriv p.rs plen payload (out + 32)

/-- Initiator, message 3, XK.c:2343-2409 -/
def initWrite2 (sp : ℕ) (p : Ptrs) (plen : UInt32) (payload : ℕ) (outlen : UInt32) (out : ℕ) : P (Option Err) :=
  if ¬ (plen ≤ 4294967215 ∧ outlen = 64 + plen) then pure (some .inputSize)
  else do
    encryptAndHash sp 32 p.spub out p.cipher p.h 1
    mixSeal sp p p.spriv p.re plen payload (out + 48)

/-- Responder, message 2, XK.c:2569-2634 -/
def respWrite1 (sp : ℕ) (p : Ptrs) (plen : UInt32) (payload : ℕ) (outlen : UInt32) (out : ℕ) : P (Option Err) :=
  if ¬ (plen ≤ 4294967215 ∧ outlen = 48 + plen) then pure (some .inputSize)
  else do
    mixHash p.h 32 p.epub
    memcpy out p.epub 32
    mixSeal sp p p.epriv p.re plen payload (out + 32)

/-- The state after a message, XK.c:2411-2489, 2637-2700, 3060-3160 and 3505-3630 -/
def finish (sp : ℕ) (role : Role) (step : UInt32) (p : Ptrs) (k1 k2 : ℕ) : Option Err → P (Except Err Next)
  | some e => pure (.error e)
  | none =>
    if step = 2 then do
      splitKeys sp p.ck k1 k2
      pure (.ok (match role with
        | .initiator => .transport k1 k2
        | .responder => .transport k2 k1))
    else pure (.ok (.handshake (step + 1)))

/-- `state_handshake_write`, XK.c:2228-2911; after an error the caller's step is 4. -/
def handshakeWrite (sp : ℕ) (role : Role) (step : UInt32) (p : Ptrs) (plen : UInt32) (payload : ℕ) (outlen : UInt32)
    (out k1 k2 : ℕ) : P (Except Err Next) :=
  if step ≥ 3 then pure (.error .incorrectTransition)
  else match role with
    | .initiator =>
      if ¬ step % 2 = 0 then pure (.error .incorrectTransition)
      else if step = 0 then do
        let r ← initWrite0 sp p plen payload outlen out
        finish sp role step p k1 k2 r
      else do
        let r ← initWrite2 sp p plen payload outlen out
        finish sp role step p k1 k2 r
    | .responder =>
      if step % 2 = 0 then pure (.error .incorrectTransition)
      else do
        let r ← respWrite1 sp p plen payload outlen out
        finish sp role step p k1 k2 r

/-- Last token and payload of a received message, XK.c:2994-3013, 3270-3289 and 3446-3462 -/
def mixOpen (sp : ℕ) (p : Ptrs) (sec pub : ℕ) (olen : UInt32) (payloadOut payloadInput : ℕ) : P (Option Err) := do
  let r ← mixDh sp sec pub p.cipher p.ck
  if r then do
    let r2 ← decryptAndHash sp olen payloadOut payloadInput p.cipher p.h 0
    pure (if r2 then none else some .decryptError)
  else pure (some .dhError)

/-- Initiator, message 2, XK.c:2985-3020 -/
def initRead1 (sp : ℕ) (p : Ptrs) (olen : UInt32) (payloadOut : ℕ) (inlen : UInt32) (input : ℕ) : P (Option Err) :=
  if ¬ (olen ≤ 4294967215 ∧ inlen = 48 + olen) then pure (some .inputSize)
  else do
    mixHash p.h 32 input
    memcpy p.re input 32
    mixOpen sp p p.epriv p.re olen payloadOut (input + 32)

/-- Responder, message 1, XK.c:3258-3293 -/
def respRead0 (sp : ℕ) (p : Ptrs) (olen : UInt32) (payloadOut : ℕ) (inlen : UInt32) (input : ℕ) : P (Option Err) :=
  if ¬ (olen ≤ 4294967215 ∧ inlen = 48 + olen) then pure (some .inputSize)
  else do
    mixHash p.h 32 input
    memcpy p.re input 32
    mixOpen sp p p.spriv p.re olen payloadOut (input + 32)

/-- Search for the peer with the received static key, XK.c:3345-3385: its number. -/
def findPeer (rs : ℕ) : List (ℕ × UInt32) → P (Option UInt32)
  | [] => pure none
  | (a, id) :: r => do
    let b ← lbytesEq 32 a rs
    if b then pure (some id) else findPeer rs r

/-- Responder, message 3, after the static key has been decrypted, XK.c:3342-3469: the result and `*pid_ptr`. -/
def respRead2Peer (sp : ℕ) (p : Ptrs) (peers : List (ℕ × UInt32)) (olen : UInt32) (payloadOut input : ℕ) :
    P (Option Err × UInt32) := do
  let f ← findPeer p.rs peers
  match f with
  | some id => do
    let r ← mixOpen sp p p.epriv p.rs olen payloadOut (input + 48)
    pure (r, id)
  | none => pure (some .rsRejected, 0)

/-- Responder, message 3, XK.c:3325-3473: the result and `*pid_ptr`, which is `pid` on entry. -/
def respRead2 (sp : ℕ) (p : Ptrs) (peers : List (ℕ × UInt32)) (pid olen : UInt32) (payloadOut : ℕ) (inlen : UInt32)
    (input : ℕ) : P (Option Err × UInt32) :=
  if ¬ (olen ≤ 4294967215 ∧ inlen = 64 + olen) then pure (some .inputSize, pid)
  else do
    let r ← decryptAndHash sp 32 p.rs input p.cipher p.h 1
    if r then respRead2Peer sp p peers olen payloadOut input
    else pure (some .decryptError, pid)

/-- `state_handshake_read`, XK.c:2926-3853: the state and the number of the peer. -/
def handshakeRead (sp : ℕ) (role : Role) (step : UInt32) (p : Ptrs) (peers : List (ℕ × UInt32)) (pid olen : UInt32)
    (payloadOut : ℕ) (inlen : UInt32) (input k1 k2 : ℕ) : P (Except Err Next × UInt32) :=
  if step ≥ 3 then pure (.error .incorrectTransition, pid)
  else match role with
    | .initiator =>
      if ¬ step % 2 = 1 then pure (.error .incorrectTransition, pid)
      else do
        let r ← initRead1 sp p olen payloadOut inlen input
        let n ← finish sp role step p k1 k2 r
        pure (n, pid)
    | .responder =>
      if step % 2 = 1 then pure (.error .incorrectTransition, pid)
      else if step = 0 then do
        let r ← respRead0 sp p olen payloadOut inlen input
        let n ← finish sp role step p k1 k2 r
        pure (n, pid)
      else do
        let r ← respRead2 sp p peers pid olen payloadOut inlen input
        let n ← finish sp role step p k1 k2 r.1
        pure (n, r.2)

/-- `state_transport_write`, XK.c:3856-4076: the error, or the new nonce. -/
def transportWrite (sp sendKey : ℕ) (sendNonce : UInt64) (plen : UInt32) (pt : ℕ) (clen : UInt32) (ct : ℕ) :
    P (Except Err UInt64) :=
  if ¬ (plen ≤ 4294967279 ∧ clen = plen + 16) then pure (.error .inputSize)
  else if sendNonce ≥ 18446744073709551615 then pure (.error .saturatedNonce)
  else do
    aeadEncrypt sp sendKey sendNonce 0 0 plen pt ct
    pure (.ok (sendNonce + 1))

/-- `state_transport_read`, XK.c:4079-4339: the error, or the new nonce. -/
def transportRead (sp recvKey : ℕ) (recvNonce : UInt64) (plen : UInt32) (pt : ℕ) (clen : UInt32) (ct : ℕ) :
    P (Except Err UInt64) :=
  if ¬ (plen ≤ 4294967279 ∧ clen = plen + 16) then pure (.error .inputSize)
  else if recvNonce ≥ 18446744073709551615 then pure (.error .saturatedNonce)
  else do
    let r ← aeadDecrypt sp recvKey recvNonce 0 0 plen pt ct
    if r then pure (.ok (recvNonce + 1)) else pure (.error .decryptError)

end

end Verif.Prim
