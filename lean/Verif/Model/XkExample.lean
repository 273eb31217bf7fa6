import Verif.Model.AuthKeys
import Verif.Model.Noise

/-!
# The example of the Noise library, src/noise_xk/example/xk-ex.c:117-297

`main` creates a device for Alice and one for Bob, registers Bob with Alice and the peers of the file `authorized_keys` with Bob,
and passes four messages between them.

* Devices, sessions and messages are values, as in `Model/Noise.lean`. Memory is left out but for three things: the buffer that
  `load_authkeys` reads lines into, the bytes of the string literals that are packed, and the bytes that `printf` reads.
* The static secret keys (xk-ex.c:39-44 and 57-62) and the ephemeral ones are parameters. In the file both static keys are equal.
* Of the output only the key that is dumped, the text that is printed and the error message are kept.
-/

namespace Verif.Noise.Example

open Auth NoiseCrypto

/-- What `main` returns and shows. `received` is what Alice has at the end, which is not printed. -/
structure Res where
  code : Int
  error : Option String := none
  peerKey : Option B32 := none
  printed : Option Bytes := none
  received : Option Bytes := none
  deriving DecidableEq

/-- `RETURN_IF_ERROR`, xk-ex.c:28 -/
def orReturn {α : Type} (o : Option α) (msg : String) (shown : Res) (k : α → C Res) : C Res :=
  match o with
  | none => .ok { shown with code := 1, error := some msg }
  | some a => k a

/-- The first `n` bytes of a string literal with its terminator, which are packed as a message. -/
def literal (s : Bytes) (n : ℕ) : C Bytes := if n ≤ s.length + 1 then .ok ((s ++ [0]).take n) else .ub .oob

/-- `printf("%s\n", plain_msg)`, xk-ex.c:260. An empty message is the pointer NULL, XK.c:198-206. -/
def printText (plain : Bytes) : C Bytes := if plain = [] then .ub .null else cstring (plain.map some)

/-- "Noise* 1.0", xk-ex.c:118; the array has no room for the terminator. -/
def prologue : Bytes := [78, 111, 105, 115, 101, 42, 32, 49, 46, 48]

/-- "Hello Bob!", xk-ex.c:234 -/
def helloBob : Bytes := [72, 101, 108, 108, 111, 32, 66, 111, 98, 33]

/-- "Hello Alice!", xk-ex.c:268 -/
def helloAlice : Bytes := [72, 101, 108, 108, 111, 32, 65, 108, 105, 99, 101, 33]

/-- The loop of `load_authkeys`, xk-ex.c:82-109, on a device that is a value; otherwise as `Auth.loadLines`. -/
def load (grow : ℕ → ℕ) : List Bytes → Buf → Device → C Device
  | [], _, dv => .ok dv
  | l :: ls, buf, dv =>
    let buf := fill grow buf l
    if keyEnd l ≠ 44 then .ok dv
    else match base642bin 32 (l.take 44) with
      | none => .ok dv
      | some bin => do
        let buf := buf.set (l.length - 1) (some 0)
        let _name ← cstring (buf.drop 45)
        let key ← whole bin
        match deviceAddPeer dv key with
        | (none, _) => .ok dv
        | (some _, dv) => load grow ls buf dv

section
variable [Hashes] [NoiseCrypto]

/-- `Noise_XK_session_write` with the test of its result; the message is only used if it is a success. -/
def send (em : Encap) (sn : Session) : Option (Bytes × Session) :=
  match sessionWrite em sn with
  | (.success, some m, sn) => some (m, sn)
  | _ => none

/-- `Noise_XK_session_read` with the test of its result -/
def receive (peers : List Peer) (sn : Session) (m : Bytes) : Option (Encap × Session) :=
  match sessionRead peers sn m with
  | (.success, some em, sn) => some (em, sn)
  | _ => none

/-- The key of the peer a session talks to, xk-ex.c:247-250. `peer_get_static` dereferences the result of the lookup. -/
def staticOf (peers : List Peer) (pid : UInt32) : C B32 :=
  match if pid = 0 then none else peers.find? fun p => p.id == pid with
  | none => .ub .null
  | some p => .ok p.s

/-- The four messages, xk-ex.c:181-283 -/
def talk (alicePeers bobPeers : List Peer) (alice bob : Session) : C Res :=
  let r : Res := { code := 0 }
  orReturn (send (pack 0 []) alice) "Send message 0" r fun (c, alice) =>
  orReturn (receive bobPeers bob c) "Receive message 0" r fun (em, bob) =>
  orReturn (unpack 0 em) "Unpack message 0" r fun _ =>
  orReturn (send (pack 0 []) bob) "Send message 1" r fun (c, bob) =>
  orReturn (receive alicePeers alice c) "Receive message 1" r fun (em, alice) =>
  orReturn (unpack 0 em) "Unpack message 1" r fun _ => do
  let text ← literal helloBob 11
  orReturn (send (pack 5 text) alice) "Send message 2" r fun (c, alice) =>
    orReturn (receive bobPeers bob c) "Receive message 2" r fun (em, bob) => do
    let key ← staticOf bobPeers bob.pid
    let r := { r with peerKey := some key }
    orReturn (unpack 2 em) "Unpack message 2" r fun plain => do
      let s ← printText plain
      let r := { r with printed := some s }
      let text ← literal helloAlice 11
      orReturn (send (pack 5 text) bob) "Send message 3" r fun (c, _) =>
        orReturn (receive alicePeers alice c) "Receive message 3" r fun (em, _) =>
        orReturn (unpack 2 em) "Unpack message 3" r fun plain =>
        .ok { r with received := some plain }

/-- `main`, xk-ex.c:117-297; `file` is the content of `authorized_keys`, `none` if it cannot be opened. -/
def main (grow : ℕ → ℕ) (aliceKey bobKey ea eb : B32) (file : Option Bytes) : C Res :=
  let aliceDev := deviceCreate prologue aliceKey
  match deviceAddPeer aliceDev (xbase bobKey) with
  | (none, _) => .ok { code := 1 }
  | (some bobId, aliceDev) =>
    let bobDev := deviceCreate prologue bobKey
    match file with
    | none => .ok { code := 1 }
    | some content => do
      let bobDev ← load grow (lines content) [] bobDev
      orReturn (createInitiator aliceDev bobId ea).1 "Alice session creation" { code := 0 } fun alice =>
        orReturn (createResponder bobDev eb).1 "Bob session creation" { code := 0 } fun bob =>
        talk aliceDev.peers bobDev.peers alice bob

end

end Verif.Noise.Example
