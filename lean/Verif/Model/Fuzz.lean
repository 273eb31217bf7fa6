import Verif.Model.Tp
import Verif.Model.Peer

/-!
# Model of the fuzzing programs, `/repo/src/tests/fuzz/msg0.c`, `peer-start.c` and `tpdkg_msg_parser.py`

Left out: the macros of AFL (a test case is memory `buf` and a length `len`), and the key pair of `msg0.c`, which nothing uses. The parser is described on
the bytes of the file; `dated` tells which times `construct.Timestamp` can express as a date (those until the year 9999), and
printing is the list of what is printed per pass of the loop.
-/

namespace Verif.Fuzz

open TpDkg Wire

section
variable [Signing] [Hashes]

/-- `main`, fuzz/msg0.c:11-24: the return value and what is written to the standard output. `junk` is the content of the
array `msg0` before. -/
def msg0Main (tp : TP) (now : UInt64) (sid seed : B32) (junk : Vector UInt8 177) : C (Int × Bytes) := do
  let (r, _, m) ← startTp tp now 10 3 2 [112, 114, 111, 116, 111, 32, 116, 101, 115, 116] sid seed junk.toList
  if r ≠ 0 then .ok (r, []) else .ok (0, m)

/-- One pass of the loop, fuzz/peer-start.c:21-33. The array `peer_lt_sks` of line 12 has 32 bytes; tpdkg_start_peer copies 64
bytes from it when it has accepted the message (tp-dkg.c:712). -/
def peerStartPass (peer : PeerState) (now : UInt64) (sks : Vector UInt8 32) (buf : Bytes) (len : ℕ) : C PeerState :=
  if len < 111 then .ok peer
  else do
    let (r, p) ← startPeer peer now 10 false (toB64 sks.toList) buf
    if r ≠ 0 then .ok p
    else do
      let sk ← rd sks.toList 0 64
      .ok { p with ltSk := toB64 sk }

end

/-- What `tpdkg_msg` makes of a message, fuzz/tpdkg_msg_parser.py:6-14. -/
structure Msg where
  signature : Bytes
  msgno : ℕ
  size : ℕ
  sender : ℕ
  /-- `to` -/
  dest : ℕ
  ts : ℕ
  data : Bytes
  deriving DecidableEq

/-- `tpdkg_msg.parse(raw)`: `none` is an exception. -/
def parse (dated : ℕ → Bool) (raw : Bytes) : Option Msg :=
  if raw.length < 79 then none
  else
    let size := beNat ((raw.drop 65).take 4)
    let ts := beNat ((raw.drop 71).take 8)
    if dated ts = false then none
    else if size < 79 then none
    else if raw.length < size then none
    else some ⟨raw.take 64, beNat ((raw.drop 64).take 1), size, beNat ((raw.drop 69).take 1), beNat ((raw.drop 70).take 1), ts,
      (raw.drop 79).take (size - 79)⟩

theorem parse_size {dated : ℕ → Bool} {raw : Bytes} {m : Msg} (h : parse dated raw = some m) : 79 ≤ m.size := by
  unfold parse at h
  dsimp only at h
  split at h
  · cases h
  split at h
  · cases h
  split at h
  · cases h
  split at h
  · cases h
  rename_i h1 _
  cases h
  exact Nat.le_of_not_lt h1

/-- The loop, fuzz/tpdkg_msg_parser.py:21-29. -/
def printed (dated : ℕ → Bool) (raw : Bytes) : List (Option Msg) :=
  if hr : raw.length > 0 then
    match h : parse dated raw with
    | some m =>
      have := parse_size h
      some m :: printed dated (raw.drop m.size)
    | none => none :: printed dated (raw.drop 83)
  else []
termination_by raw.length
decreasing_by
  all_goals simp only [List.length_drop]; omega

end Verif.Fuzz
