import Verif.Model.Noise

/-!
# The Noise specification (revision 34) for the pattern XK, and a network of two sessions

`XK: <- s; -> e, es; <- e, ee; -> s, se` with 25519, ChaChaPoly and BLAKE2b. Written from the specification: HMAC as
in RFC 2104, HKDF, the symmetric state with its nonce counter, and the tokens one by one. Only the primitives
(`NoiseCrypto`, `Hashes.generichash64`) are shared with the model.
-/

namespace Verif.Spec.NoiseXK

section
variable [Hashes] [NoiseCrypto]

/-- BLAKE2b with 64 bytes of output -/
def hash (x : Bytes) : Bytes := (Hashes.generichash64 x).toList

/-- RFC 2104 with block length 128, for keys no longer than a block -/
def hmac (key m : Bytes) : Bytes :=
  let k := key ++ List.replicate (128 - key.length) 0
  hash (k.map (· ^^^ 0x5c) ++ hash (k.map (· ^^^ 0x36) ++ m))

/-- HKDF with two outputs, Noise 4.3 -/
def hkdf (ck ikm : Bytes) : Bytes × Bytes :=
  let tempKey := hmac ck ikm
  let output1 := hmac tempKey [0x01]
  (output1, hmac tempKey (output1 ++ [0x02]))

/-- `SymmetricState` and the `CipherState` within it, Noise 5.1 and 5.2 (`k` is empty before the first MixKey) -/
structure Sym where
  ck : Bytes
  h : Bytes
  k : B32
  n : UInt64

def mixHash (s : Sym) (d : Bytes) : Sym := { s with h := hash (s.h ++ d) }

/-- MixKey: the cipher key is the second output truncated to 32 bytes, the nonce starts again at zero -/
def mixKey (s : Sym) (ikm : Bytes) : Sym :=
  let o := hkdf s.ck ikm
  { s with ck := o.1, k := toB32 (o.2.take 32), n := 0 }

def encryptAndHash (s : Sym) (p : Bytes) : Bytes × Sym :=
  let c := NoiseCrypto.aeadEnc s.k s.n s.h p
  (c, { mixHash s c with n := s.n + 1 })

/-- `InitializeSymmetric` with a name no longer than a hash -/
def initSym (name : Bytes) : Sym :=
  let h := name ++ List.replicate (64 - name.length) 0
  { ck := h, h, k := toB32 [], n := 0 }

/-- A key pair -/
structure Pair where
  priv : B32
  pub : B32

inductive Tok
  | e | s | ee | es | se

/-- One token of a message written by the initiator (`init`) or responder with static key `s`, ephemeral key `e` to a
party with keys `rs`, `re`. `none` if the Diffie-Hellman function fails. -/
def token (init : Bool) (s e : Pair) (rs re : B32) (st : Sym) : Tok → Option (Bytes × Sym)
  | .e => some (e.pub.toList, mixHash st e.pub.toList)
  | .s => some (encryptAndHash st s.pub.toList)
  | .ee => (NoiseCrypto.dh e.priv re).map fun k => ([], mixKey st k.toList)
  | .es => (if init then NoiseCrypto.dh e.priv rs else NoiseCrypto.dh s.priv re).map fun k => ([], mixKey st k.toList)
  | .se => (if init then NoiseCrypto.dh s.priv re else NoiseCrypto.dh e.priv rs).map fun k => ([], mixKey st k.toList)

def tokens (init : Bool) (s e : Pair) (rs re : B32) : List Tok → Sym → Option (Bytes × Sym)
  | [], st => some ([], st)
  | t :: ts, st =>
    match token init s e rs re st t with
    | none => none
    | some (a, st) =>
      match tokens init s e rs re ts st with
      | none => none
      | some (b, st) => some (a ++ b, st)

/-- WriteMessage, Noise 5.3 -/
def writeMessage (init : Bool) (s e : Pair) (rs re : B32) (ts : List Tok) (payload : Bytes) (st : Sym) :
    Option (Bytes × Sym) :=
  match tokens init s e rs re ts st with
  | none => none
  | some (a, st) =>
    let r := encryptAndHash st payload
    some (a ++ r.1, r.2)

/-- The three messages of a handshake between honest parties, and the keys and hash at its end (`Split`). -/
structure Outcome where
  m1 : Bytes
  m2 : Bytes
  m3 : Bytes
  k1 : B32
  k2 : B32
  h : Bytes

/-- ASCII of the protocol name -/
def name : Bytes := "Noise_XK_25519_ChaChaPoly_BLAKE2b".toList.map fun c => UInt8.ofNat c.toNat

/-- The pattern XK run by an initiator with keys `si`, `ei` and a responder with keys `sr`, `er`. -/
def handshake (prologue : Bytes) (si ei sr er : Pair) (p1 p2 p3 : Bytes) : Option Outcome :=
  let st0 := mixHash (mixHash (initSym name) prologue) sr.pub.toList
  match writeMessage true si ei sr.pub er.pub [.e, .es] p1 st0 with
  | none => none
  | some (m1, st1) =>
    match writeMessage false sr er si.pub ei.pub [.e, .ee] p2 st1 with
    | none => none
    | some (m2, st2) =>
      match writeMessage true si ei sr.pub er.pub [.s, .se] p3 st2 with
      | none => none
      | some (m3, st3) =>
        let o := hkdf st3.ck []
        some { m1, m2, m3, k1 := toB32 (o.1.take 32), k2 := toB32 (o.2.take 32), h := st3.h }

end

/-- The confidentiality levels a caller can ask for (Noise 7.8, as numbered in the library) that message number `step`
meets; number 3 is transport. Message 0 goes to a known receiver (2), message 1 to an unauthenticated one (1), the
others have strong forward secrecy (5). Level 1 is forward secrecy without authentication, which message 0 lacks. -/
def allowed : ℕ → List ℕ
  | 0 => [0, 2]
  | 1 => [0, 1]
  | _ => [0, 1, 2, 3, 4, 5]

/-- Whose turn it is to write message number `step` of the handshake. -/
def writer : ℕ → Option Noise.Role
  | 0 => some .initiator
  | 1 => some .responder
  | 2 => some .initiator
  | _ => none

/-- The other side -/
def other : Noise.Role → Noise.Role
  | .initiator => .responder
  | .responder => .initiator

/-! ### Two sessions and the channels between them -/

/-- A session at each end, and in each direction the ciphertexts on the wire, the plaintexts the sender was told it
sent and the plaintexts the receiver got (both in order). -/
structure Net where
  sess : Noise.Role → Noise.Session
  wire : Noise.Role → List Bytes
  sent : Noise.Role → List Bytes
  got : Noise.Role → List Bytes
  /-- some delivered message was not accepted -/
  refused : Bool

inductive Ev
  /-- the party calls session_write; what a successful call returns goes onto the wire -/
  | send (who : Noise.Role) (m : Noise.Encap)
  /-- the oldest message sent by the party reaches the other one -/
  | deliver (who : Noise.Role)

section
variable [Hashes] [NoiseCrypto]
open Noise

def Net.step (peers : List Peer) (net : Net) : Ev → Net
  | .send r em =>
    match sessionWrite em (net.sess r) with
    | (.success, some c, sn) =>
      { net with
        sess := Function.update net.sess r sn
        wire := Function.update net.wire r (net.wire r ++ [c])
        sent := Function.update net.sent r (net.sent r ++ [em.msg]) }
    | (_, _, sn) => { net with sess := Function.update net.sess r sn }
  | .deliver r =>
    match net.wire r with
    | [] => net
    | c :: rest =>
      match sessionRead peers (net.sess (other r)) c with
      | (.success, some em, sn) =>
        { net with
          sess := Function.update net.sess (other r) sn
          wire := Function.update net.wire r rest
          got := Function.update net.got r (net.got r ++ [em.msg]) }
      | (_, _, sn) =>
        { net with
          sess := Function.update net.sess (other r) sn
          wire := Function.update net.wire r rest
          refused := true }

def Net.run (peers : List Peer) (net : Net) (evs : List Ev) : Net := evs.foldl (Net.step peers) net

/-- Two sessions with nothing on the wire -/
def Net.init (i r : Session) : Net where
  sess | .initiator => i | .responder => r
  wire _ := []
  sent _ := []
  got _ := []
  refused := false

/-- A call on one session -/
inductive Call
  | write (em : Encap)
  | read (peers : List Peer) (input : Bytes)

/-- Run calls on a session and list, for the successful writes made in transport state, message and ciphertext. -/
def encryptions : List Call → Session → List (Bytes × Bytes)
  | [], _ => []
  | .read peers input :: cs, sn => encryptions cs (sessionRead peers sn input).2.2
  | .write em :: cs, sn =>
    let r := sessionWrite em sn
    match sn.st, r.1, r.2.1 with
    | .transport _, .success, some c => (em.msg, c) :: encryptions cs r.2.2
    | _, _, _ => encryptions cs r.2.2

/-- The session after some calls, all on the device with these peers -/
def after (peers : List Peer) : List (Encap ⊕ Bytes) → Session → Session
  | [], sn => sn
  | .inl em :: cs, sn => after peers cs (sessionWrite em sn).2.2
  | .inr input :: cs, sn => after peers cs (sessionRead peers sn input).2.2

end

end Verif.Spec.NoiseXK
