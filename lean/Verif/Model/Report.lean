import Verif.Model.Tp

/-!
# The texts about cheaters, src/tp-dkg.c:1669-1760 and python/pyoprf/__init__.py:615-628

`Model/Tp.lean` describes the text of `tpdkg_cheater_msg` by its kind and its arguments. Here it is the string that `snprintf`
puts into the buffer, and the list that the Python wrapper makes of it.

* ctypes takes the result of `tpdkg_cheater_msg` for an `int`; the compiler extends the `uint8_t` with zeros.
* The set of cheaters is the list of the numbers that were added.
* All characters are in ASCII, which `decode('utf8')` leaves as they are.
-/

namespace Verif.TpDkg.Report

/-- Characters of a string literal. -/
def str (s : String) : Bytes := s.toList.map fun c => UInt8.ofNat c.toNat

/-- Decimal digits of a number. -/
def dec (n : ℕ) : Bytes := if n < 10 then [UInt8.ofNat (48 + n)] else dec (n / 10) ++ [UInt8.ofNat (48 + n % 10)]
decreasing_by omega

/-- `%d` -/
def decInt (z : Int) : Bytes := if z < 0 then 45 :: dec z.natAbs else dec z.natAbs

/-- `tpdkg_recv_err`, tp-dkg.c:1669-1681 -/
def recvErr (code : Int) : String :=
  if code = 0 then "no error"
  else if code = 1 then "invalid message len"
  else if code = 2 then "invalid message number"
  else if code = 3 then "invalid sender"
  else if code = 4 then "invalid recipient"
  else if code = 5 then "expired message"
  else if code = 6 then "invalid signature"
  else if code = 7 then "invalid sessionid"
  else "invalid recv_msg error code"

/-- Part of a formatted text. -/
inductive Piece
  | lit (s : String)
  | num (z : Int)

def Piece.bytes : Piece → Bytes
  | .lit s => str s
  | .num z => decInt z

def u8 (x : UInt8) : Piece := .num x.toNat

/-- The formats of `tpdkg_cheater_msg`, tp-dkg.c:1683-1760. -/
def pieces : Text → List Piece
  | .notValidated s p o e =>
    [.lit "step ", .num s, .lit " message from peer ", u8 p, .lit " for peer ", u8 o, .lit " could not be validated: ",
     .lit (recvErr e)]
  | .tooMany => [.lit "more than t^2 complaints, most peers are cheating."]
  | .invalidPeer p o => [.lit "peer ", u8 p, .lit " sent complaint about invalid peer ", u8 o, .lit "."]
  | .duplicate p o => [.lit "peer ", u8 p, .lit " sent a duplicate complaint about peer ", u8 o, .lit "."]
  | .badCode16 e => [.lit "invalid error code for step 16: ", .num e]
  | .shareMsg p o e =>
    [.lit "message containing encrypted share from peer ", u8 p, .lit " for peer ", u8 o, .lit " could not be validated: ",
     .lit (recvErr e)]
  | .keyMsg p o e =>
    [.lit "message revealing key encrypting share from peer ", u8 p, .lit " for peer ", u8 o,
     .lit " could not be validated: ", .lit (recvErr e)]
  | .notComplained p o =>
    [.lit "accused peer ", u8 p, .lit " revealed a key (for peer ", u8 o, .lit ") that was not complained about"]
  | .hmac p o =>
    [.lit "verification of hmac of message from accused peer ", u8 p, .lit " to complaining peer ", u8 o, .lit " failed"]
  | .shareIndex p o i =>
    [.lit "accused peer ", u8 p, .lit " sent an invalid share with index ", u8 o, .lit " to complaining peer ", .num i]
  | .happy p o => [.lit "accused peer ", u8 p, .lit " revealed a key for happy peer ", u8 o]
  | .notVerified p o => [.lit "accused peer ", u8 p, .lit " complained by peer ", u8 o, .lit " was not verified"]
  | .invalidParams p o =>
    [.lit "accused peer ", u8 p, .lit " provided invalid parameters to complaint from peer ", u8 o]
  | .falselyAccused p o => [.lit "peer ", u8 p, .lit " was falsely accused by peer ", u8 o]
  | .caught p o => [.lit "accused peer ", u8 p, .lit " was caught cheating by peer ", u8 o]
  | .badCode18 e => [.lit "invalid error code for step 18: ", .num e]
  | .mismatch p => [.lit "transcript mismatch peer ", u8 p]
  | .badCode20 e => [.lit "invalid error code for step 20: ", .num e]
  | .badStep s => [.lit "invalid step ", .num s]

def render (t : Text) : Bytes := ((pieces t).map Piece.bytes).flatten

/-- `snprintf(out, outlen, ...)` -/
def snprintf (out : Bytes) (outlen : ℕ) (text : Bytes) : C Bytes :=
  if outlen = 0 then .ok out
  else
    let s := text.take (outlen - 1) ++ [0]
    if s.length ≤ out.length then .ok (s ++ out.drop s.length) else .ub .oob

/-- `raw[:raw.find(b'\x00')]`; without a zero byte `find` returns -1, and the last byte is cut off. -/
def untilZero (raw : Bytes) : Bytes := if 0 ∈ raw then raw.takeWhile (· ≠ 0) else raw.dropLast

/-- `tpdkg_get_cheaters`, `__init__.py`:615-628: the set of cheaters and the list of texts. -/
def getCheaters (n : UInt8) : List Cheater → C (List ℕ × List (ℕ × Bytes))
  | [] => .ok ([], [])
  | c :: cs => do
    let err ← snprintf (List.replicate 128 0) 128 (render (cheaterMsg c).2)
    let p := (cheaterMsg c).1.toNat
    let (cheaters, cheats) ← getCheaters n cs
    if 0 ≥ p ∧ p > n.toNat then .ok (cheaters, cheats)
    else .ok (p :: cheaters, (p, untilZero err) :: cheats)

end Verif.TpDkg.Report
