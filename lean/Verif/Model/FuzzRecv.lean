import Verif.Model.Wire

/-!
# `recv_msg` of the library built for fuzzing, `/repo/src/tp-dkg.c:125-155`

With `FUZZING_BUILD_MODE_UNSAFE_FOR_PRODUCTION` the time stamp (lines 134-142) and the signature (lines 150-152) are not checked.
-/

namespace Verif.Wire

/-- `recv_msg`, tp-dkg.c:125-155, without lines 135-141 and 151, for the message at `buf + off`. `*last_ts` is not used. -/
def recvMsgFuzz (buf : Bytes) (off len : ℕ) (msgno frm rcp : UInt8) (sid : B32) : C Int := do
  let l ← rd buf (off + 65) 4
  if (htonl (u32 l)).toNat ≠ len then .ok 1
  else
  let m ← ld buf (off + 64)
  if m ≠ msgno then .ok 2
  else
  let f ← ld buf (off + 69)
  if f ≠ frm then .ok 3
  else
  let t ← ld buf (off + 70)
  if t ≠ rcp then .ok 4
  else
  let s ← rd buf (off + 79) 32
  if s ≠ sid.toList then .ok 7
  else if len < 64 then .ub .vla
  else
  let _ ← rd buf (off + 64) (len - 64)
  .ok 0

end Verif.Wire
