import Verif.Model.Wire
import Verif.Model.Dkg
import Verif.Model.Noise

/-!
# The trusted party of the TP-DKG protocol, src/tp-dkg.c

`log` tells whether `log_file` is set; the reads done by `dump` are modelled, the text written is not. `clock k` is the
result of the `k`-th call of `time(NULL)` by this process. The code under `UNITTEST_CORRUPT`, `UNITTEST` and
`FUZZING_BUILD_MODE_UNSAFE_FOR_PRODUCTION` is not modelled. Sizes (`size_t`) are natural numbers: the largest is
128·128·256. `input` and `output` are given as buffers of exactly the lengths passed.
-/

namespace Verif

/-- `crypto_auth` (HMAC-SHA-512-256); `crypto_auth_verify` recomputes and compares. No property is assumed. -/
class Mac where
  auth : B32 → Bytes → B32

namespace TpDkg

open Wire

/-- `tpdkg_msg0_SIZE`, tp-dkg.h:30-33 -/
def msg0Size : ℕ := 177
/-- `tpdkg_msg1_SIZE`, tp-dkg.c:52 -/
def msg1Size : ℕ := 111
/-- `tpdkg_msg2_SIZE`, tp-dkg.c:53 -/
def msg2Size : ℕ := 175
/-- `tpdkg_msg4_SIZE`, tp-dkg.c:55 -/
def msg4Size : ℕ := 159
/-- `tpdkg_msg5_SIZE`, tp-dkg.c:57 -/
def msg5Size : ℕ := 159
/-- `tpdkg_msg6_SIZE`, tp-dkg.c:58 -/
def msg6Size (t : UInt8) : ℕ := 111 + 32 * t.toNat
/-- `tpdkg_msg8_SIZE`, tp-dkg.h:35-39 -/
def msg8Size : ℕ := 256
/-- `tpdkg_msg9_SIZE`, tp-dkg.c:59 -/
def msg9Size (n : UInt8) : ℕ := 111 + (n.toNat + 1)
/-- `tpdkg_msg10_SIZE`, tp-dkg.c:60 -/
def msg10Size (n : UInt8) : ℕ := 111 + n.toNat * msg9Size n
/-- `tpdkg_msg19_SIZE`, tp-dkg.c:61 -/
def msg19Size : ℕ := 143
/-- `tpdkg_msg20_SIZE`, tp-dkg.c:62 -/
def msg20Size : ℕ := 113
/-- `tpdkg_msg21_SIZE`, tp-dkg.c:63 -/
def msg21Size : ℕ := 113

/-- `TP_DKG_Cheater`, tp-dkg.h:193-199 -/
structure Cheater where
  step : Int
  error : Int
  peer : UInt8
  other : UInt8
  invalidIndex : Int
  deriving DecidableEq

/-- `TP_DKG_TPState`, tp-dkg.h:243-265; the buffers set by `tpdkg_tp_set_bufs` are part of the state, `transcript` holds the
bytes hashed so far and `ticks` counts the calls of `time`. -/
structure TP where
  step : ℕ
  prev : ℕ
  sid : B32
  n : UInt8
  t : UInt8
  sigPk : B32
  sigSk : B64
  lastTs : List UInt64
  eps : UInt64
  sigPks : List B32
  ltPks : List B32
  commitments : List B32
  encShares : Bytes
  complaintsLen : UInt16
  complaints : List UInt16
  cheaterLen : ℕ
  cheaters : List Cheater
  cheaterMax : ℕ
  transcript : Bytes
  ticks : ℕ

/-- State during a call of `tpdkg_tp_next`: the context, the output buffer, the offsets `wptr` and `ptr`, and the local
array `complaints` of step 18. -/
structure Run where
  ctx : TP
  out : Bytes
  w : ℕ
  r : ℕ
  loc : List UInt16

/-! ## Sizes -/

/-- The counters of complaints per accused peer, tp-dkg.c:406-408 (`uint8_t`). -/
def countLoop : (cs : List UInt16) → (ctr : List UInt8) → C (List UInt8)
  | [], ctr => .ok ctr
  | c :: cs, ctr =>
    let i := c.toNat % 256
    if i = 0 then .ub .oob
    else do
      let x ← ld ctr (i - 1)
      let ctr ← st ctr (i - 1) (x + 1)
      countLoop cs ctr

/-- `tpdkg_tp_input_sizes`, tp-dkg.c:395-429: return value and `sizes`. -/
def tpInputSizes (ctx : TP) : C (Int × List ℕ) :=
  let n := ctx.n.toNat
  let same (item : ℕ) : C (Int × List ℕ) := .ok (1, List.replicate n item)
  match ctx.step with
  | 0 => same 0
  | 1 => same (msg2Size + 64)
  | 2 => same (msg4Size * n)
  | 3 => same (msg4Size * n)
  | 4 => same (msg6Size ctx.t)
  | 5 => same (n * msg8Size)
  | 6 => same (msg9Size ctx.n)
  | 7 =>
    if n = 0 then .ub .vla
    else do
      let cs ← rd ctx.complaints 0 ctx.complaintsLen.toNat
      let ctr ← countLoop cs (List.replicate n 0)
      .ok (0, ctr.map fun c => if c > 0 then hdrSize + 33 * c.toNat else 0)
  | 8 => same msg19Size
  | 9 => same msg21Size
  | _ => same 0

/-- `tpdkg_tp_input_size`, tp-dkg.c:383-393. -/
def tpInputSize (ctx : TP) : C ℕ :=
  if ctx.n = 0 then .ub .vla
  else do
    let (r, sizes) ← tpInputSizes ctx
    if r = 1 then
      let s0 ← ld sizes 0
      .ok (s0 * ctx.n.toNat)
    else .ok sizes.sum

/-- `tpdkg_tp_output_size`, tp-dkg.c:431-446. -/
def tpOutputSize (ctx : TP) : ℕ :=
  let n := ctx.n.toNat
  match ctx.step with
  | 0 => n * msg1Size
  | 1 => msg2Size * n + hdrSize
  | 2 => msg4Size * n * n
  | 3 => msg5Size * n * n
  | 4 => hdrSize + msg6Size ctx.t * n
  | 5 => n * n * msg8Size
  | 6 => msg10Size ctx.n
  | 7 => 0
  | 8 => msg20Size
  | 9 => 0
  | _ => 0

/-- `tpdkg_tp_peer_msg`, tp-dkg.c:448-514: return value, offset of `*msg` in `base` (`none` for NULL) and `*len`; on the
returns -1 and 1 nothing is written. -/
def tpPeerMsg (ctx : TP) (baseSize : ℕ) (peer : UInt8) : Int × Option (Option ℕ × ℕ) :=
  let n := ctx.n.toNat
  let p := peer.toNat
  if peer ≥ ctx.n then (-1, none)
  else
    let chk (off len : ℕ) : Int × Option (Option ℕ × ℕ) :=
      (if baseSize < off + len then 2 else 0, some (some off, len))
    match ctx.prev with
    | 0 => chk (p * msg1Size) msg1Size
    | 1 => chk 0 (msg2Size * n + hdrSize)
    | 2 => chk (p * msg4Size * n) (msg4Size * n)
    | 3 => chk (p * msg5Size * n) (msg5Size * n)
    | 4 => chk 0 (hdrSize + msg6Size ctx.t * n)
    | 5 => chk (p * n * msg8Size) (n * msg8Size)
    | 6 => chk 0 (msg10Size ctx.n)
    | 7 => (0, some (none, 0))
    | 8 => chk 0 msg20Size
    | 9 => (0, some (none, 0))
    | _ => (1, none)

/-- `tpdkg_tp_not_done`, tp-dkg.c:588-590 -/
def tpNotDone (ctx : TP) : Bool := ctx.step < 10

/-! ## Start -/

variable [Signing] [Hashes]

/-- `"TP DKG for protocol "`, tp-dkg.c:647 -/
def dstPrefix : Bytes := [84, 80, 32, 68, 75, 71, 32, 102, 111, 114, 32, 112, 114, 111, 116, 111, 99, 111, 108, 32]

/-- `"tp dkg session transcript"`, tp-dkg.c:671 -/
def transcriptInit : Bytes := [116, 112, 32, 100, 107, 103, 32, 115, 101, 115, 115, 105, 111, 110, 32, 116, 114, 97, 110,
  115, 99, 114, 105, 112, 116]

/-- `tpdkg_start_tp`, tp-dkg.c:625-681. `sid` and `seed` are the random session id and the seed of the key pair, `now` is
the clock. The fields that are not initialised keep their values in `ctx`. `proto_name_len` is the length of `name`. -/
def startTp (ctx : TP) (now eps : UInt64) (n t : UInt8) (name : Bytes) (sid seed : B32) (msg0 : Bytes) :
    C (Int × TP × Bytes) :=
  if 2 > n ∨ t ≥ n ∨ n > 128 then .ok (1, ctx, msg0)
  else if name.length < 1 then .ok (2, ctx, msg0)
  else if name.length > 1024 then .ok (3, ctx, msg0)
  else if msg0.length ≠ msg0Size then .ok (4, ctx, msg0)
  else do
    let dst := Hashes.generichash32 (beBytes 2 (name.length + 20) ++ dstPrefix ++ name)
    let msg0 ← wr msg0 111 (Signing.pkOf seed).toList
    let msg0 ← wr msg0 143 dst.toList
    let msg0 ← wr msg0 175 [n]
    let msg0 ← wr msg0 176 [t]
    let msg0 ← sendMsg now msg0 0 msg0Size 0 0 0xff (Signing.skOf seed) sid
    .ok (0, { ctx with
      eps, step := 0, n, t, complaintsLen := 0, cheaterLen := 0, sid, sigPk := Signing.pkOf seed
      sigSk := Signing.skOf seed, transcript := updateTranscript transcriptInit msg0, ticks := ctx.ticks + 1 }, msg0)

/-- `tpdkg_tp_set_bufs`, tp-dkg.c:604-623, with the caller's buffers. `cheater_max` entries are cleared. -/
def tpSetBufs (ctx : TP) (now : UInt64) (commitments : List B32) (complaints : List UInt16) (encShares : Bytes)
    (cheaters : List Cheater) (cheaterMax : ℕ) (sigPks ltPks : List B32) (lastTs : List UInt64) : C TP := do
  let cheaters ← wr cheaters 0 (List.replicate cheaterMax ⟨0, 0, 0, 0, 0⟩)
  let lastTs ← wr lastTs 0 (List.replicate ctx.n.toNat now)
  .ok { ctx with commitments, complaints, encShares, cheaters, cheaterMax, sigPks, ltPks, lastTs, ticks := ctx.ticks + 1 }

/-! ## Helpers of the steps -/

/-- The reads of `dump(buf+off, len)`. -/
def dump (log : Bool) (buf : Bytes) (off len : ℕ) : H Run Unit :=
  if log then do
    let _ ← H.lift (rd buf off len)
    pure ()
  else pure ()

def setCtx (f : TP → TP) : H Run Unit := H.modify fun s => { s with ctx := f s.ctx }

/-- `add_cheater`, tp-dkg.c:367-375; the result NULL leads to `return code`. With `inv` the caller sets `invalid_index`,
which otherwise keeps its value. -/
def addCheaterIx (step error : Int) (peer other : UInt8) (inv : Option Int) (code : Int) : H Run Unit := do
  let s ← H.get
  if s.ctx.cheaterLen ≥ s.ctx.cheaterMax then H.ret code
  else
    let c ← H.lift (ld s.ctx.cheaters s.ctx.cheaterLen)
    let cs ← H.lift (st s.ctx.cheaters s.ctx.cheaterLen ⟨step, error, peer, other, inv.getD c.invalidIndex⟩)
    setCtx fun ctx => { ctx with cheaters := cs, cheaterLen := ctx.cheaterLen + 1 }

/-- `add_cheater`, tp-dkg.c:367-375; the result NULL leads to `return code`. -/
def addCheater (step error : Int) (peer other : UInt8) (code : Int) : H Run Unit :=
  addCheaterIx step error peer other none code

/-- `recv_msg(ptr, ..., &ctx->last_ts[i])` of the TP. -/
def tpRecv (clock : ℕ → UInt64) (input : Bytes) (off len : ℕ) (msgno frm rcp : UInt8) (pk : B32) (i : ℕ) :
    H Run Int := do
  let s ← H.get
  let last ← H.lift (ld s.ctx.lastTs i)
  let (r, last, k) ← H.lift (recvMsg (clock s.ctx.ticks) input off len msgno frm rcp pk s.ctx.sid s.ctx.eps last)
  let lastTs ← H.lift (st s.ctx.lastTs i last)
  setCtx fun ctx => { ctx with lastTs, ticks := ctx.ticks + k }
  pure r

/-- `send_msg(output+off, ...)` of the TP (from 0). -/
def tpSend (clock : ℕ → UInt64) (off len : ℕ) (msgno rcp : UInt8) : H Run Unit := do
  let s ← H.get
  let out ← H.lift (sendMsg (clock s.ctx.ticks) s.out off len msgno 0 rcp s.ctx.sigSk s.ctx.sid)
  H.modify fun s => { s with out, ctx := { s.ctx with ticks := s.ctx.ticks + 1 } }

/-- `memcpy(wptr, input+off, len); wptr+=len`. -/
def copyOut (input : Bytes) (off len : ℕ) : H Run Unit := do
  let s ← H.get
  let m ← H.lift (rd input off len)
  let out ← H.lift (wr s.out s.w m)
  H.modify fun s => { s with out, w := s.w + len }

/-- `update_transcript(&ctx->transcript, output, output_len)`. -/
def tpTranscript : H Run Unit :=
  H.modify fun s => { s with ctx := { s.ctx with transcript := updateTranscript s.ctx.transcript s.out } }

/-- `memcpy((*ctx->peer_sig_pks)[i], pk, 32)`. -/
def setSigPk (i : ℕ) (pk : B32) : H Run Unit := do
  let s ← H.get
  let pks ← H.lift (st s.ctx.sigPks i pk)
  setCtx fun ctx => { ctx with sigPks := pks }

/-- `memcpy((*ctx->commitments)[off], data, 32*k)`. -/
def setCommitments (off : ℕ) (data : List B32) : H Run Unit := do
  let s ← H.get
  let cs ← H.lift (wr s.ctx.commitments off data)
  setCtx fun ctx => { ctx with commitments := cs }

/-- `(*ctx->complaints)[ctx->complaints_len++] = p`. -/
def addComplaint (p : UInt16) : H Run Unit := do
  let s ← H.get
  let cs ← H.lift (st s.ctx.complaints s.ctx.complaintsLen.toNat p)
  setCtx fun ctx => { ctx with complaints := cs, complaintsLen := ctx.complaintsLen + 1 }

/-- `memcpy(output+off, b, len)`. -/
def setOut (off : ℕ) (b : Bytes) : H Run Unit := do
  let s ← H.get
  let out ← H.lift (wr s.out off b)
  H.modify fun s => { s with out }

/-- Entry `i` of the signing keys of the peers. -/
def sigPkOf (i : ℕ) : H Run B32 := do
  let s ← H.get
  H.lift (ld s.ctx.sigPks i)

/-- `i+1` as `uint8_t`. -/
def idx (i : ℕ) : UInt8 := UInt8.ofNat (i + 1)

/-! ## Steps -/

/-- `tp_step1_handler`, tp-dkg.c:727-743. -/
def tp1 (clock : ℕ → UInt64) (log : Bool) (input : Bytes) : H Run Int := do
  let s ← H.get
  if input.length ≠ 0 then H.ret 1
  else if s.out.length ≠ s.ctx.n.toNat * msg1Size then H.ret 2
  else
    H.forN s.ctx.n.toNat fun i => do
      tpSend clock (i * msg1Size) hdrSize 1 (idx i)
      let s ← H.get
      dump log s.out (i * msg1Size) msg1Size
    pure 0

/-- One iteration of `tp_step4_handler`, tp-dkg.c:793-813. -/
def tp4Body (clock : ℕ → UInt64) (log : Bool) (input : Bytes) (i : ℕ) : H Run Unit := do
  let ptr := i * (msg2Size + 64)
  dump log input ptr msg2Size
  let s ← H.get
  let sig ← H.lift (rd input (ptr + msg2Size) 64)
  let m ← H.lift (rd input ptr msg2Size)
  let lt ← H.lift (ld s.ctx.ltPks i)
  if !Signing.verify lt m (toB64 sig) then H.ret 3
  else
  let pk ← H.lift (rd input (ptr + hdrSize) 32)
  let ret ← tpRecv clock input ptr msg2Size 2 (idx i) 0xff (toB32 pk) i
  if ret ≠ 0 then addCheater 4 (64 + ret) (idx i) 0xff 7
  else
    setSigPk i (toB32 pk)
    copyOut input ptr msg2Size

/-- `if(ctx->cheater_len>0) return code;` -/
def noCheaters (code : Int) : H Run Unit := do
  let s ← H.get
  if s.ctx.cheaterLen > 0 then H.ret code else pure ()

/-- `tp_step4_handler`, tp-dkg.c:786-821. -/
def tp4 (clock : ℕ → UInt64) (log : Bool) (input : Bytes) : H Run Int := do
  let s ← H.get
  let n := s.ctx.n.toNat
  if (msg2Size + 64) * n ≠ input.length then H.ret 1
  else if s.out.length ≠ msg2Size * n + hdrSize then H.ret 2
  else
    H.modify fun s => { s with w := hdrSize }
    H.forN n (tp4Body clock log input)
    noCheaters 6
    tpSend clock 0 s.out.length 3 0xff
    tpTranscript
    pure 0

/-- The inner body of `tp_step68_handler`, tp-dkg.c:880-894. The call of `fprintf` is not guarded by a test of
`log_file`. -/
def tp68Body (clock : ℕ → UInt64) (log : Bool) (input : Bytes) (n step i j : ℕ) : H Run Unit := do
  let ptr := (j * n + i) * msg4Size
  let pk ← sigPkOf j
  let ret ← tpRecv clock input ptr msg4Size (UInt8.ofNat (2 + step)) (idx j) (idx i) pk j
  if ret ≠ 0 then
    addCheater (6 + ((step : Int) - 1) * 2) (64 + ret) (idx j) (idx i) 7
    if !log then H.lift (.ub .null)
    else dump log input ptr msg4Size
  else copyOut input ptr msg4Size

/-- `tp_step68_handler`, tp-dkg.c:871-899. -/
def tp68 (clock : ℕ → UInt64) (log : Bool) (input : Bytes) : H Run Int := do
  let s ← H.get
  let n := s.ctx.n.toNat
  if input.length ≠ msg4Size * n * n then H.ret 1
  else if input.length ≠ s.out.length then H.ret 2
  else
    H.modify fun s => { s with w := 0 }
    H.forN n fun i => H.forN n fun j => tp68Body clock log input n s.ctx.step i j
    noCheaters 6
    pure 0

/-- `k` arrays of 32 bytes. -/
def toB32s (k : ℕ) (b : Bytes) : List B32 := (List.range k).map fun i => toB32 ((b.drop (32 * i)).take 32)

/-- One iteration of `tp_step12_handler`, tp-dkg.c:972-990. -/
def tp12Body (clock : ℕ → UInt64) (log : Bool) (input : Bytes) (t : UInt8) (i : ℕ) : H Run Unit := do
  let ptr := i * msg6Size t
  dump log input ptr (msg6Size t)
  let pk ← sigPkOf i
  let ret ← tpRecv clock input ptr (msg6Size t) 6 (idx i) 0xff pk i
  if ret ≠ 0 then addCheater 12 (64 + ret) (idx i) 0xff 7
  else
    let data ← H.lift (rd input (ptr + hdrSize) (32 * t.toNat))
    setCommitments (i * t.toNat) (toB32s t.toNat data)
    copyOut input ptr (msg6Size t)

/-- `tp_step12_handler`, tp-dkg.c:965-1005. -/
def tp12 (clock : ℕ → UInt64) (log : Bool) (input : Bytes) : H Run Int := do
  let s ← H.get
  let n := s.ctx.n.toNat
  if msg6Size s.ctx.t * n ≠ input.length then H.ret 1
  else if s.out.length ≠ hdrSize + input.length then H.ret 2
  else
    H.modify fun s => { s with w := hdrSize }
    H.forN n (tp12Body clock log input s.ctx.t)
    noCheaters 6
    tpSend clock 0 s.out.length 7 0xff
    tpTranscript
    pure 0

/-- `memcpy((*ctx->encrypted_shares), input, input_len)`. -/
def keepShares (input : Bytes) : H Run Unit := do
  let s ← H.get
  let es ← H.lift (wr s.ctx.encShares 0 input)
  setCtx fun ctx => { ctx with encShares := es }

/-- The inner body of `tp_step14_handler`, tp-dkg.c:1087-1101. -/
def tp14Body (clock : ℕ → UInt64) (log : Bool) (input : Bytes) (n i j : ℕ) : H Run Unit := do
  let ptr := (j * n + i) * msg8Size
  dump log input ptr msg8Size
  let pk ← sigPkOf j
  let ret ← tpRecv clock input ptr msg8Size 8 (idx j) (idx i) pk j
  if ret ≠ 0 then addCheater 14 (64 + ret) (idx j) (idx i) 7
  else copyOut input ptr msg8Size

/-- `tp_step14_handler`, tp-dkg.c:1078-1108. -/
def tp14 (clock : ℕ → UInt64) (log : Bool) (input : Bytes) : H Run Int := do
  let s ← H.get
  let n := s.ctx.n.toNat
  if input.length ≠ msg8Size * n * n then H.ret 1
  else if input.length ≠ s.out.length then H.ret 2
  else
    H.modify fun s => { s with w := 0 }
    H.forN n fun i => H.forN n fun j => tp14Body clock log input n i j
    noCheaters 6
    keepShares input
    pure 0

/-- `((i)<<8) | x` as `uint16_t`. -/
def pair (i x : UInt8) : UInt16 := UInt16.ofNat (i.toNat * 256 + x.toNat)

/-- One iteration of the loop over the complaints in a message, tp-dkg.c:1203-1219; `data` is the offset of the body. -/
def tp16Inner (input : Bytes) (data i k : ℕ) : H Run Unit := do
  let x ← H.lift (ld input (data + (k + 1)))
  let s ← H.get
  if x > s.ctx.n ∨ x < 1 then addCheater 16 7 (idx i) x 6
  else
    let p := pair (idx i) x
    let known ← H.lift (rd s.ctx.complaints 0 s.ctx.complaintsLen.toNat)
    if p ∈ known then addCheater 16 8 (idx i) x 6
    else addComplaint p

/-- `msg->len - sizeof(TP_DKG_Message)`, tp-dkg.c:1199 and 1202: `msg->len` is in network byte order and is not
converted. -/
def lenField (l : Bytes) : UInt64 := (u32 l).toUInt64 - 111

/-- One iteration of `tp_step16_handler`, tp-dkg.c:1189-1224. The loop `k<msg->data[0] && (k+1)<msg->len-sizeof(...)` ends
with the first `k` that violates the condition. -/
def tp16Body (clock : ℕ → UInt64) (log : Bool) (input : Bytes) (n : UInt8) (i : ℕ) : H Run Unit := do
  let ptr := i * msg9Size n
  dump log input ptr (msg9Size n)
  let pk ← sigPkOf i
  let ret ← tpRecv clock input ptr (msg9Size n) 9 (idx i) 0xff pk i
  if ret ≠ 0 then addCheater 16 (64 + ret) (idx i) 0xff 6
  else
  let l ← H.lift (rd input (ptr + 65) 4)
  let d ← H.lift (ld input (ptr + hdrSize))
  if lenField l < UInt64.ofNat d.toNat then H.ret 4
  else
    H.forN (min d.toNat ((lenField l).toNat - 1)) (tp16Inner input (ptr + hdrSize) i)
    copyOut input ptr (msg9Size n)

/-- `tp_step16_handler`, tp-dkg.c:1178-1244. -/
def tp16 (clock : ℕ → UInt64) (log : Bool) (input : Bytes) : H Run Int := do
  let s ← H.get
  let n := s.ctx.n
  if msg9Size n * n.toNat ≠ input.length then H.ret 1
  else if s.out.length ≠ msg10Size n then H.ret 2
  else
    setCtx fun ctx => { ctx with complaintsLen := 0 }
    H.modify fun s => { s with w := hdrSize }
    H.forN n.toNat (tp16Body clock log input n)
    let s ← H.get
    if log then
      let _ ← H.lift (rd s.ctx.complaints 0 s.ctx.complaintsLen.toNat)
    if s.ctx.complaintsLen.toNat ≥ s.ctx.t.toNat * s.ctx.t.toNat then
      addCheater 16 6 0xfe 0xfe 6
      H.ret 5
    else
      noCheaters 5
      tpSend clock 0 s.out.length 10 0xff
      tpTranscript
      pure 0

/-- The counters of `tp_step18_handler`, tp-dkg.c:1340-1346 (`unsigned int`). -/
def count18 : (cs : List UInt16) → (ctr : List ℕ) → C (List ℕ)
  | [], ctr => .ok ctr
  | c :: cs, ctr =>
    let i := c.toNat % 256
    if i = 0 then .ub .oob
    else do
      let x ← ld ctr (i - 1)
      let ctr ← st ctr (i - 1) (x + 1)
      count18 cs ctr

variable (G : Type) [Ristretto G] [NoiseCrypto] [Mac]

/-- The check of one revealed key, tp-dkg.c:1390-1463; `m8` is the offset of the message with the encrypted share in
`encrypted_shares`. -/
def tp18Share (clock : ℕ → UInt64) (log : Bool) (scratch : B32) (accused complainer : UInt8) (m8 : ℕ) (key : B32) :
    H Run Unit := do
  let s ← H.get
  let es := s.ctx.encShares
  dump log es m8 msg8Size
  let ts ← H.lift (rd es (m8 + 71) 8)
  let pk ← sigPkOf (accused.toNat - 1)
  let (ret, _, k) ← H.lift (recvMsg (clock s.ctx.ticks) es m8 msg8Size 8 accused complainer pk s.ctx.sid s.ctx.eps
    (htonll (u64 ts)))
  setCtx fun ctx => { ctx with ticks := ctx.ticks + k }
  if ret ≠ 0 then addCheater 18 (16 + ret) accused complainer 4
  else
  let mac ← H.lift (rd es (m8 + hdrSize + 113) 32)
  let box ← H.lift (rd es (m8 + hdrSize + 64) 49)
  if (Mac.auth key box).toList ≠ mac then addCheater 18 3 accused complainer 4
  else
  match NoiseCrypto.aeadDec key 0 [] box with
  | none => addCheater 18 4 accused complainer 4
  | some plain => do
    let index ← H.lift (ld plain 0)
    let value ← H.lift (rd plain 1 32)
    if index ≠ complainer then
      addCheaterIx 18 5 accused complainer (some index.toNat) 4
    else
      let t := s.ctx.t
      if log then
        let _ ← H.lift (rd s.ctx.commitments ((accused.toNat - 1) * t.toNat) t.toNat)
      let cms := s.ctx.commitments.drop ((accused.toNat - 1) * t.toNat)
      let ret ← H.lift (Dkg.verifyCommitment G scratch t index accused cms ⟨index, toB32 value⟩)
      addCheater 18 (128 + ret) accused complainer 4

/-- One iteration of the loop over the revealed keys, tp-dkg.c:1370-1388; `ptr` is the offset of the message. -/
def tp18Key (clock : ℕ → UInt64) (log : Bool) (scratch : B32) (input : Bytes) (ptr k : ℕ) : H Run Unit := do
  let keyptr := ptr + hdrSize + 33 * k
  let complainer ← H.lift (ld input keyptr)
  let accused ← H.lift (ld input (ptr + 69))
  let s ← H.get
  if pair complainer accused ∈ s.loc then
    H.modify fun s => { s with loc := s.loc.set (s.loc.idxOf (pair complainer accused)) 0xffff }
    if accused = 0 ∨ complainer = 0 then H.lift (.ub .oob)
    else
      let m8 := ((accused.toNat - 1) * s.ctx.n.toNat + (complainer.toNat - 1)) * msg8Size
      let key ← H.lift (rd input (keyptr + 1) 32)
      tp18Share G clock log scratch accused complainer m8 (toB32 key)
  else addCheater 18 6 accused complainer 4

/-- One iteration of the loop over the accused peers, tp-dkg.c:1352-1465. -/
def tp18Body (clock : ℕ → UInt64) (log : Bool) (scratch : B32) (input : Bytes) (ctr : List ℕ) (i : ℕ) : H Run Unit := do
  let c ← H.lift (ld ctr i)
  if c = 0 then pure ()
  else
    let len := hdrSize + 33 * c
    let s ← H.get
    let ptr := s.r
    dump log input ptr len
    let pk ← sigPkOf i
    let ret ← tpRecv clock input ptr len 11 (idx i) 0 pk i
    if ret ≠ 0 then addCheater 18 (32 + ret) (idx i) 0xfe 4
    else H.forN c (tp18Key G clock log scratch input ptr)
    H.modify fun s => { s with r := s.r + len }

/-- The loop over the unanswered complaints, tp-dkg.c:1475-1479. -/
def tp18Rest : (loc : List UInt16) → H Run Unit
  | [] => pure ()
  | c :: cs => do
    if c ≠ 0xffff then addCheater 18 7 (UInt8.ofNat (c.toNat / 256)) (UInt8.ofNat (c.toNat % 256)) 4
    tp18Rest cs

/-- `tp_step18_handler`, tp-dkg.c:1335-1483. `scratch` is the indeterminate content of a local variable of
`dkg_verify_commitment`. -/
def tp18 (clock : ℕ → UInt64) (log : Bool) (scratch : B32) (input : Bytes) : H Run Int := do
  let s ← H.get
  let size ← H.lift (tpInputSize s.ctx)
  if input.length ≠ size then H.ret 1
  else if s.out.length ≠ 0 then H.ret 2
  else if s.ctx.complaintsLen = 0 then H.lift (.ub .vla)
  else
    let cs ← H.lift (rd s.ctx.complaints 0 s.ctx.complaintsLen.toNat)
    let ctr ← H.lift (count18 cs (List.replicate s.ctx.n.toNat 0))
    H.modify fun s => { s with loc := cs, r := 0 }
    H.forN s.ctx.n.toNat (tp18Body G clock log scratch input ctr)
    let s ← H.get
    tp18Rest s.loc
    setCtx fun ctx => { ctx with step := 99 }
    pure 3

/-- One iteration of `tp_step20_handler`, tp-dkg.c:1513-1535. -/
def tp20Body (clock : ℕ → UInt64) (log : Bool) (input : Bytes) (hash : B32) (i : ℕ) : H Run Unit := do
  let ptr := i * msg19Size
  dump log input ptr msg19Size
  let pk ← sigPkOf i
  let ret ← tpRecv clock input ptr msg19Size 20 (idx i) 0 pk i
  if ret ≠ 0 then do
    addCheater 20 (1 + ret) (idx i) 0 4
    setOut hdrSize [78, 79]
  else
    let data ← H.lift (rd input (ptr + hdrSize) 32)
    if hash.toList ≠ data then do
      addCheater 20 1 (idx i) 0 4
      setOut hdrSize [78, 79]
    else pure ()

/-- `tp_step20_handler`, tp-dkg.c:1501-1546. -/
def tp20 (clock : ℕ → UInt64) (log : Bool) (input : Bytes) : H Run Int := do
  let s ← H.get
  let n := s.ctx.n.toNat
  if msg19Size * n ≠ input.length then H.ret 1
  else if s.out.length ≠ msg20Size then H.ret 2
  else
    let hash := Hashes.generichash32 s.ctx.transcript
    setOut hdrSize [79, 75]
    H.forN n (tp20Body clock log input hash)
    tpSend clock 0 s.out.length 21 0xff
    let s ← H.get
    if s.ctx.cheaterLen = 0 then pure 0
    else
      setCtx fun ctx => { ctx with step := 99 }
      pure 3

/-- One iteration of `tp_step22_handler`, tp-dkg.c:1586-1603. An answer other than "OK" is only written to the log. -/
def tp22Body (clock : ℕ → UInt64) (log : Bool) (input : Bytes) (i : ℕ) : H Run Unit := do
  let ptr := i * msg21Size
  dump log input ptr msg21Size
  let pk ← sigPkOf i
  let ret ← tpRecv clock input ptr msg21Size 22 (idx i) 0 pk i
  if ret ≠ 0 then addCheater 22 (64 + ret) (idx i) 0 6
  else
    let _ ← H.lift (rd input (ptr + hdrSize) 2)
    pure ()

/-- `tp_step22_handler`, tp-dkg.c:1579-1607. -/
def tp22 (clock : ℕ → UInt64) (log : Bool) (input : Bytes) : H Run Int := do
  let s ← H.get
  let n := s.ctx.n.toNat
  if msg21Size * n ≠ input.length then H.ret 1
  else if s.out.length ≠ 0 then H.ret 2
  else
    H.forN n (tp22Body clock log input)
    noCheaters 5
    pure 0

/-- The handler of the current step, tp-dkg.c:1611-1634. -/
def tpHandler (clock : ℕ → UInt64) (log : Bool) (scratch : B32) (input : Bytes) (step : ℕ) : H Run Int :=
  match step with
  | 0 => tp1 clock log input
  | 1 => tp4 clock log input
  | 2 => tp68 clock log input
  | 3 => tp68 clock log input
  | 4 => tp12 clock log input
  | 5 => tp14 clock log input
  | 6 => tp16 clock log input
  | 7 => tp18 G clock log scratch input
  | 8 => tp20 clock log input
  | 9 => tp22 clock log input
  | _ => pure 99

/-- `tpdkg_tp_next`, tp-dkg.c:1609-1639: return value, state, output buffer. -/
def tpNext (clock : ℕ → UInt64) (log : Bool) (scratch : B32) (ctx : TP) (input out : Bytes) : C (Int × TP × Bytes) := do
  if ctx.step > 9 then .ok (99, ctx, out)
  else
    let (ret, s) ← (tpHandler G clock log scratch input ctx.step).result ⟨ctx, out, 0, 0, []⟩
    let c := s.ctx
    if ctx.step = 6 then
      .ok (ret, { c with prev := c.step, step := c.step + (if c.complaintsLen = 0 then 2 else 1) }, s.out)
    else
      .ok (ret, { c with prev := c.step, step := if ret ≠ 0 then 99 else c.step + 1 }, s.out)

/-! ## Cheater messages -/

/-- The texts of `tpdkg_cheater_msg` with their arguments. -/
inductive Text
  | notValidated (step : Int) (peer other : UInt8) (err : Int)   -- "step %d message from peer %d for peer %d could not be validated: %s"
  | tooMany                                                       -- "more than t^2 complaints, most peers are cheating."
  | invalidPeer (peer other : UInt8)                              -- "peer %d sent complaint about invalid peer %d."
  | duplicate (peer other : UInt8)                                -- "peer %d sent a duplicate complaint about peer %d."
  | badCode16 (err : Int)                                         -- "invalid error code for step 16: %d"
  | shareMsg (peer other : UInt8) (err : Int)                     -- "message containing encrypted share ... could not be validated: %s"
  | keyMsg (peer other : UInt8) (err : Int)                       -- "message revealing key ... could not be validated: %s"
  | notComplained (peer other : UInt8)                            -- "accused peer %d revealed a key (for peer %d) that was not complained about"
  | hmac (peer other : UInt8)                                     -- "verification of hmac of message from accused peer %d to complaining peer %d failed"
  | shareIndex (peer : UInt8) (other : UInt8) (index : Int)       -- "accused peer %d sent an invalid share with index %d to complaining peer %d"
  | happy (peer other : UInt8)                                    -- "accused peer %d revealed a key for happy peer %d"
  | notVerified (peer other : UInt8)                              -- "accused peer %d complained by peer %d was not verified"
  | invalidParams (peer other : UInt8)                            -- "accused peer %d provided invalid parameters to complaint from peer %d"
  | falselyAccused (peer other : UInt8)                           -- "peer %d was falsely accused by peer %d"
  | caught (peer other : UInt8)                                   -- "accused peer %d was caught cheating by peer %d"
  | badCode18 (err : Int)                                         -- "invalid error code for step 18: %d"
  | mismatch (peer : UInt8)                                       -- "transcript mismatch peer %d"
  | badCode20 (err : Int)                                         -- "invalid error code for step 20: %d"
  | badStep (step : Int)                                          -- "invalid step %d"
  deriving DecidableEq

/-- The bit `2^k` of an `int` in two's complement. -/
def bit (x : Int) (k : ℕ) : Bool := (x / 2 ^ k) % 2 = 1

/-- `tpdkg_cheater_msg`, tp-dkg.c:1683-1760: returned peer and text. In the text of error 5 the arguments are in the
order of the code. -/
def cheaterMsg (c : Cheater) : UInt8 × Text :=
  if c.error > 65 ∧ c.error ≤ 70 then (c.peer, .notValidated c.step c.peer c.other (c.error % 64))
  else if c.step = 16 then
    if c.error = 6 then (0, .tooMany)
    else if c.error = 7 then (c.peer, .invalidPeer c.peer c.other)
    else if c.error = 8 then (c.peer, .duplicate c.peer c.other)
    else (0, .badCode16 c.error)
  else if c.step = 18 then
    if bit c.error 4 then (c.peer, .shareMsg c.peer c.other (c.error % 16))
    else if bit c.error 5 then (c.peer, .keyMsg c.peer c.other (c.error % 32))
    else if c.error = 3 then (c.peer, .notComplained c.peer c.other)
    else if c.error = 4 then (c.peer, .hmac c.peer c.other)
    else if c.error = 5 then (c.peer, .shareIndex c.peer c.other c.invalidIndex)
    else if c.error = 6 then (c.peer, .happy c.peer c.other)
    else if c.error = 7 then (c.peer, .notVerified c.peer c.other)
    else if c.error = 127 then (c.peer, .invalidParams c.peer c.other)
    else if c.error = 128 then (c.other, .falselyAccused c.peer c.other)
    else if c.error = 129 then (c.peer, .caught c.peer c.other)
    else (0, .badCode18 c.error)
  else if c.step = 20 then
    if c.error = 1 then (c.peer, .mismatch c.peer)
    else (0, .badCode20 c.error)
  else (0, .badStep c.step)

end TpDkg

end Verif
