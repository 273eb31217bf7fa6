import Verif.Base.Handler
import Verif.Model.Oprf

/-!
# Messages of the TP-DKG protocol, src/tp-dkg.c:78-155 and 377-381, src/tp-dkg.h:96-105

A little-endian host is assumed: `htonl` and `ntohl` swap bytes and a `uint32_t` is stored with its low byte first.
`clock k` is the result of the `k`-th call of `time(NULL)` by a process.
-/

namespace Verif

/-- Ed25519 (`crypto_sign_*`). Only correctness is assumed, no unforgeability. -/
class Signing where
  /-- public key of `crypto_sign_keypair` for the drawn seed -/
  pkOf : B32 → B32
  /-- secret key of `crypto_sign_keypair` for the drawn seed -/
  skOf : B32 → B64
  /-- `crypto_sign_detached` -/
  sign : B64 → Bytes → B64
  /-- `crypto_sign_verify_detached(sig, m, pk) == 0` -/
  verify : B32 → Bytes → B64 → Bool
  verify_sign : ∀ seed m, verify (pkOf seed) m (sign (skOf seed) m) = true

/-- Fixed-size view of a list. -/
def toB64 (l : Bytes) : B64 := Vector.ofFn fun i => l[i.1]?.getD 0

namespace Wire

/-- `sizeof(TP_DKG_Message)`: packed header of 64+1+4+1+1+8+32 bytes, tp-dkg.h:96-105. -/
def hdrSize : ℕ := 111

/-- `htonl` and `ntohl` of the C library: the number whose representation in memory is the network byte order. -/
def htonl (x : UInt32) : UInt32 := UInt32.ofNat (beNat (leBytes 4 x.toNat))

/-- `htonll` and `ntohll`, tp-dkg.c:78-96. -/
def htonll (n : UInt64) : UInt64 :=
  ((htonl n.toUInt32).toUInt64 <<< 32) + (htonl (n >>> 32).toUInt32).toUInt64

/-- A `uint32_t` in memory as 4 bytes. -/
def u32 (b : Bytes) : UInt32 := UInt32.ofNat (leNat b)

/-- A `uint64_t` in memory as 8 bytes. -/
def u64 (b : Bytes) : UInt64 := UInt64.ofNat (leNat b)

/-- `check_ts`, tp-dkg.c:98-109; `now` is the clock, only read when `*last_ts == 0`. Results: return value, `*last_ts`,
number of calls of `time`. -/
def checkTs (now eps last ts : UInt64) : Int × UInt64 × ℕ :=
  if last = 0 then
    if ts < now - eps then (3, last, 1)
    else if ts > now + eps then (4, last, 1)
    else (0, ts, 1)
  else if last > ts then (1, last, 0)
  else if ts > last + eps then (2, last, 0)
  else (0, ts, 0)

variable [Signing]

/-- `send_msg`, tp-dkg.c:111-123, for the message at `buf + off`; the test for NULL is left out, all callers pass a
pointer into a buffer. -/
def sendMsg (now : UInt64) (buf : Bytes) (off len : ℕ) (msgno frm rcp : UInt8) (sk : B64) (sid : B32) : C Bytes := do
  let buf ← wr buf (off + 65) (leBytes 4 (htonl (UInt32.ofNat len)).toNat)
  let buf ← wr buf (off + 64) [msgno]
  let buf ← wr buf (off + 69) [frm]
  let buf ← wr buf (off + 70) [rcp]
  let buf ← wr buf (off + 71) (leBytes 8 (htonll now).toNat)
  let buf ← wr buf (off + 79) sid.toList
  let hdr ← rd buf (off + 64) (hdrSize - 64)
  wr buf off (Signing.sign sk hdr).toList

/-- `recv_msg`, tp-dkg.c:125-155, for the message at `buf + off`. Results: return value, `*last_ts`, number of calls
of `time`. The message printed to the log file is left out. -/
def recvMsg (now : UInt64) (buf : Bytes) (off len : ℕ) (msgno frm rcp : UInt8) (pk : B32) (sid : B32) (eps last : UInt64) :
    C (Int × UInt64 × ℕ) := do
  let l ← rd buf (off + 65) 4
  if (htonl (u32 l)).toNat ≠ len then .ok (1, last, 0)
  else
  let m ← ld buf (off + 64)
  if m ≠ msgno then .ok (2, last, 0)
  else
  let f ← ld buf (off + 69)
  if f ≠ frm then .ok (3, last, 0)
  else
  let t ← ld buf (off + 70)
  if t ≠ rcp then .ok (4, last, 0)
  else
  let s ← rd buf (off + 79) 32
  if s ≠ sid.toList then .ok (7, last, 0)
  else
  let ts ← rd buf (off + 71) 8
  let (r, last, ticks) := checkTs now eps last (htonll (u64 ts))
  if r ≠ 0 then .ok (5, last, ticks)
  else if len < 64 then .ub .vla
  else
  let _ ← rd buf (off + 64) (len - 64)
  let sig ← rd buf off 64
  let hdr ← rd buf (off + 64) (hdrSize - 64)
  if Signing.verify pk hdr (toB64 sig) then .ok (0, last, ticks) else .ok (6, last, ticks)

/-- `update_transcript`, tp-dkg.c:377-381: the bytes fed to the hash so far are kept. -/
def updateTranscript (transcript msg : Bytes) : Bytes :=
  transcript ++ leBytes 4 (htonl (UInt32.ofNat msg.length)).toNat ++ msg

end Wire

end Verif
