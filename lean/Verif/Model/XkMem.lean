import Verif.Model.XkExample
import Verif.Model.SessionMem

/-!
# The example of the Noise library on the heap, src/noise_xk/example/xk-ex.c:117-297

`main` with every allocation and release in the order of the source. `Model/XkExample.lean` is the same program with devices,
sessions and messages as values.

* Messages that are passed on are read from the block that `Noise_XK_session_write` allocated.
* The buffer of `load_authkeys` is not a block of the heap; it is released at the end of the function, xk-ex.c:112.
* The text of the fourth message is read only to report it; the program itself releases it unread, xk-ex.c:283.
* The keys and the prologue are global or local arrays, not blocks of the heap.
-/

namespace Verif.Noise.Example

open Auth NoiseCrypto Mem

/-- `RETURN_IF_ERROR`, xk-ex.c:28. Nothing is released. -/
def orReturnAt {α : Type} (o : Option α) (msg : String) (shown : Res) (k : α → M Res) : M Res :=
  match o with
  | none => pure { shown with code := 1, error := some msg }
  | some a => k a

/-- "Alice", xk-ex.c:137 -/
def nameAlice : Bytes := [65, 108, 105, 99, 101]

/-- "Bob", xk-ex.c:140 and 148 -/
def nameBob : Bytes := [66, 111, 98]

/-- The keys for storage, xk-ex.c:31-36 and 49-54 -/
def srlzKey : B32 := Vector.replicate 32 0

/-- `if (len > 0) free(p);`, for instance xk-ex.c:200 -/
def freeLen (n p : ℕ) : M Unit := if n > 0 then free p else pure ()

/-- `printf("%s\n", plain_msg)`, xk-ex.c:260 -/
def printAt (p : ℕ) : M Bytes := do
  let b ← loadBytes p
  ofC (cstring (b.map some))

section
variable [Hashes] [NoiseCrypto]

/-- Pack and write a message and release the packed one, for instance xk-ex.c:181-184: length and address of the bytes.
The packed message is not released if the write fails. -/
def writeMsg (snp conf : ℕ) (msg : Bytes) : M (Option (ℕ × ℕ)) := do
  let em ← packMsg conf msg
  let r ← sessionWriteAt em snp
  if r.1.isSuccess then do
    encapFree em
    pure (some r.2)
  else pure none

/-- Read a message from its bytes, for instance xk-ex.c:188: address of the packed message. -/
def readMsg (snp : ℕ) (c : ℕ × ℕ) : M (Option ℕ) := do
  let input ← loadN c.2 c.1
  let r ← sessionReadAt snp input
  pure (if r.1.isSuccess then some r.2 else none)

/-- `Noise_XK_unpack_message_with_auth_level`: length and address of the text -/
def unpackAt (auth emp : ℕ) : M (Option (ℕ × ℕ)) := do
  let u ← unpackMsg auth emp
  pure (if u.1 then some u.2 else none)

/-- The four messages, xk-ex.c:181-283, and the releases at the end, xk-ex.c:289-292 -/
def talkAt (da db sa sb : ℕ) : M Res := do
  let r : Res := { code := 0 }
  orReturnAt (← writeMsg sa 0 []) "Send message 0" r fun c => do
  orReturnAt (← readMsg sb c) "Receive message 0" r fun em => do
  orReturnAt (← unpackAt 0 em) "Unpack message 0" r fun p => do
  encapFree em
  freeLen c.1 c.2
  freeLen p.1 p.2
  orReturnAt (← writeMsg sb 0 []) "Send message 1" r fun c => do
  orReturnAt (← readMsg sa c) "Receive message 1" r fun em => do
  orReturnAt (← unpackAt 0 em) "Unpack message 1" r fun p => do
  encapFree em
  freeLen c.1 c.2
  freeLen p.1 p.2
  let text ← ofC (literal helloBob 11)
  orReturnAt (← writeMsg sa 5 text) "Send message 2" r fun c => do
  orReturnAt (← readMsg sb c) "Receive message 2" r fun em => do
  let pid ← getPeerId sb
  let peer ← lookupById db pid
  let key ← peerGetStatic peer
  let r := { r with peerKey := some (toB32 key) }
  orReturnAt (← unpackAt 2 em) "Unpack message 2" r fun p => do
  encapFree em
  freeLen c.1 c.2
  let s ← printAt p.2
  let r := { r with printed := some s }
  freeLen p.1 p.2
  let text ← ofC (literal helloAlice 11)
  orReturnAt (← writeMsg sb 5 text) "Send message 3" r fun c => do
  orReturnAt (← readMsg sa c) "Receive message 3" r fun em => do
  orReturnAt (← unpackAt 2 em) "Unpack message 3" r fun p => do
  encapFree em
  freeLen c.1 c.2
  let plain ← loadBuf p.2 p.1
  freeLen p.1 p.2
  sessionFree sa
  sessionFree sb
  deviceFree da
  deviceFree db
  pure { r with received := some plain }

/-- `main`, xk-ex.c:117-297 -/
def mainAt (grow : ℕ → ℕ) (aliceKey bobKey ea eb : B32) (file : Option Bytes) : M Res := do
  let da ← create prologue (some nameAlice) srlzKey aliceKey
  let pb ← addPeer da (some nameBob) (xbase bobKey)
  if pb = 0 then pure { code := 1 }
  else do
    let bobId ← peerGetId pb
    let db ← create prologue (some nameBob) srlzKey bobKey
    let ret ← loadAuthkeys grow db file
    if ret ≠ 0 then pure { code := 1 }
    else do
      let sa ← createInit da bobId ea
      if sa = 0 then pure { code := 1, error := some "Alice session creation" }
      else do
        let sb ← createResp db eb
        if sb = 0 then pure { code := 1, error := some "Bob session creation" }
        else talkAt da db sa sb

end

end Verif.Noise.Example
