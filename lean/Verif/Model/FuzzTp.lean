import Verif.Model.FuzzRecv
import Verif.Model.Tp

/-!
# The trusted party of the library built for fuzzing, `/repo/src/tp-dkg.c:786-1639`

The definitions are those of `Model/Tp.lean` without what `FUZZING_BUILD_MODE_UNSAFE_FOR_PRODUCTION` leaves out: the time stamps and
signatures in `recv_msg`, the long-term signatures in step 4 (lines 799-801), and the codes of the encrypted shares in step 18 (lines
1412-1421). Steps without such a check are taken from there.
-/

set_option linter.unusedSectionVars false

namespace Verif.TpDkg

open Wire

variable [Signing] [Hashes]

/-- `recv_msg(ptr, ..., &ctx->last_ts[i])` of the TP; neither the key nor the time stamp is used. -/
def tpRecvF (input : Bytes) (off len : ℕ) (msgno frm rcp : UInt8) : H Run Int := do
  let s ← H.get
  H.lift (recvMsgFuzz input off len msgno frm rcp s.ctx.sid)

/-- One iteration of `tp_step4_handler`, tp-dkg.c:793-813. -/
def tp4BodyF (log : Bool) (input : Bytes) (i : ℕ) : H Run Unit := do
  let ptr := i * (msg2Size + 64)
  dump log input ptr msg2Size
  let pk ← H.lift (rd input (ptr + hdrSize) 32)
  let ret ← tpRecvF input ptr msg2Size 2 (idx i) 0xff
  if ret ≠ 0 then addCheater 4 (64 + ret) (idx i) 0xff 7
  else
    setSigPk i (toB32 pk)
    copyOut input ptr msg2Size

/-- `tp_step4_handler`, tp-dkg.c:786-821. -/
def tp4F (clock : ℕ → UInt64) (log : Bool) (input : Bytes) : H Run Int := do
  let s ← H.get
  let n := s.ctx.n.toNat
  if (msg2Size + 64) * n ≠ input.length then H.ret 1
  else if s.out.length ≠ msg2Size * n + hdrSize then H.ret 2
  else
    H.modify fun s => { s with w := hdrSize }
    H.forN n (tp4BodyF log input)
    noCheaters 6
    tpSend clock 0 s.out.length 3 0xff
    tpTranscript
    pure 0

/-- The inner body of `tp_step68_handler`, tp-dkg.c:880-894. The call of `fprintf` is not guarded by a test of
`log_file`. -/
def tp68BodyF (log : Bool) (input : Bytes) (n step i j : ℕ) : H Run Unit := do
  let ptr := (j * n + i) * msg4Size
  let ret ← tpRecvF input ptr msg4Size (UInt8.ofNat (2 + step)) (idx j) (idx i)
  if ret ≠ 0 then
    addCheater (6 + ((step : Int) - 1) * 2) (64 + ret) (idx j) (idx i) 7
    if !log then H.lift (.ub .null)
    else dump log input ptr msg4Size
  else copyOut input ptr msg4Size

/-- `tp_step68_handler`, tp-dkg.c:871-899. -/
def tp68F (log : Bool) (input : Bytes) : H Run Int := do
  let s ← H.get
  let n := s.ctx.n.toNat
  if input.length ≠ msg4Size * n * n then H.ret 1
  else if input.length ≠ s.out.length then H.ret 2
  else
    H.modify fun s => { s with w := 0 }
    H.forN n fun i => H.forN n fun j => tp68BodyF log input n s.ctx.step i j
    noCheaters 6
    pure 0

/-- One iteration of `tp_step12_handler`, tp-dkg.c:972-990. -/
def tp12BodyF (log : Bool) (input : Bytes) (t : UInt8) (i : ℕ) : H Run Unit := do
  let ptr := i * msg6Size t
  dump log input ptr (msg6Size t)
  let ret ← tpRecvF input ptr (msg6Size t) 6 (idx i) 0xff
  if ret ≠ 0 then addCheater 12 (64 + ret) (idx i) 0xff 7
  else
    let data ← H.lift (rd input (ptr + hdrSize) (32 * t.toNat))
    setCommitments (i * t.toNat) (toB32s t.toNat data)
    copyOut input ptr (msg6Size t)

/-- `tp_step12_handler`, tp-dkg.c:965-1005. -/
def tp12F (clock : ℕ → UInt64) (log : Bool) (input : Bytes) : H Run Int := do
  let s ← H.get
  let n := s.ctx.n.toNat
  if msg6Size s.ctx.t * n ≠ input.length then H.ret 1
  else if s.out.length ≠ hdrSize + input.length then H.ret 2
  else
    H.modify fun s => { s with w := hdrSize }
    H.forN n (tp12BodyF log input s.ctx.t)
    noCheaters 6
    tpSend clock 0 s.out.length 7 0xff
    tpTranscript
    pure 0

/-- The inner body of `tp_step14_handler`, tp-dkg.c:1087-1101. -/
def tp14BodyF (log : Bool) (input : Bytes) (n i j : ℕ) : H Run Unit := do
  let ptr := (j * n + i) * msg8Size
  dump log input ptr msg8Size
  let ret ← tpRecvF input ptr msg8Size 8 (idx j) (idx i)
  if ret ≠ 0 then addCheater 14 (64 + ret) (idx j) (idx i) 7
  else copyOut input ptr msg8Size

/-- `tp_step14_handler`, tp-dkg.c:1078-1108. -/
def tp14F (log : Bool) (input : Bytes) : H Run Int := do
  let s ← H.get
  let n := s.ctx.n.toNat
  if input.length ≠ msg8Size * n * n then H.ret 1
  else if input.length ≠ s.out.length then H.ret 2
  else
    H.modify fun s => { s with w := 0 }
    H.forN n fun i => H.forN n fun j => tp14BodyF log input n i j
    noCheaters 6
    keepShares input
    pure 0

/-- One iteration of `tp_step16_handler`, tp-dkg.c:1189-1224. The loop `k<msg->data[0] && (k+1)<msg->len-sizeof(...)` ends
with the first `k` that violates the condition. -/
def tp16BodyF (log : Bool) (input : Bytes) (n : UInt8) (i : ℕ) : H Run Unit := do
  let ptr := i * msg9Size n
  dump log input ptr (msg9Size n)
  let ret ← tpRecvF input ptr (msg9Size n) 9 (idx i) 0xff
  if ret ≠ 0 then addCheater 16 (64 + ret) (idx i) 0xff 6
  else
  let l ← H.lift (rd input (ptr + 65) 4)
  let d ← H.lift (ld input (ptr + hdrSize))
  if lenField l < UInt64.ofNat d.toNat then H.ret 4
  else
    H.forN (min d.toNat ((lenField l).toNat - 1)) (tp16Inner input (ptr + hdrSize) i)
    copyOut input ptr (msg9Size n)

/-- `tp_step16_handler`, tp-dkg.c:1178-1244. -/
def tp16F (clock : ℕ → UInt64) (log : Bool) (input : Bytes) : H Run Int := do
  let s ← H.get
  let n := s.ctx.n
  if msg9Size n * n.toNat ≠ input.length then H.ret 1
  else if s.out.length ≠ msg10Size n then H.ret 2
  else
    setCtx fun ctx => { ctx with complaintsLen := 0 }
    H.modify fun s => { s with w := hdrSize }
    H.forN n.toNat (tp16BodyF log input n)
    let s ← H.get
    if log then
      let _ ← H.lift (rd s.ctx.complaints 0 s.ctx.complaintsLen.toNat)
    if s.ctx.complaintsLen.toNat ≥ s.ctx.t.toNat * s.ctx.t.toNat then
      addCheater 16 6 0xfe 0xfe 6
      H.ret 5
    else
      noCheaters 5
      tpSend clock 0 s.out.length 10 0xff
      tpTranscript
      pure 0

variable (G : Type) [Ristretto G] [NoiseCrypto]

/-- The check of one revealed key, tp-dkg.c:1390-1463; `m8` is the offset of the message with the encrypted share in
`encrypted_shares`. -/
def tp18ShareF (log : Bool) (scratch : B32) (accused complainer : UInt8) (m8 : ℕ) (key : B32) :
    H Run Unit := do
  let s ← H.get
  let es := s.ctx.encShares
  dump log es m8 msg8Size
  let _ ← H.lift (rd es (m8 + 71) 8)
  let ret ← H.lift (recvMsgFuzz es m8 msg8Size 8 accused complainer s.ctx.sid)
  if ret ≠ 0 then addCheater 18 (16 + ret) accused complainer 4
  else
  let box ← H.lift (rd es (m8 + hdrSize + 64) 49)
  match NoiseCrypto.aeadDec key 0 [] box with
  | none => addCheater 18 4 accused complainer 4
  | some plain => do
    let index ← H.lift (ld plain 0)
    let value ← H.lift (rd plain 1 32)
    if index ≠ complainer then
      addCheaterIx 18 5 accused complainer (some index.toNat) 4
    else
      let t := s.ctx.t
      if log then
        let _ ← H.lift (rd s.ctx.commitments ((accused.toNat - 1) * t.toNat) t.toNat)
      let cms := s.ctx.commitments.drop ((accused.toNat - 1) * t.toNat)
      let ret ← H.lift (Dkg.verifyCommitment G scratch t index accused cms ⟨index, toB32 value⟩)
      addCheater 18 (128 + ret) accused complainer 4

/-- One iteration of the loop over the revealed keys, tp-dkg.c:1370-1388; `ptr` is the offset of the message. -/
def tp18KeyF (log : Bool) (scratch : B32) (input : Bytes) (ptr k : ℕ) : H Run Unit := do
  let keyptr := ptr + hdrSize + 33 * k
  let complainer ← H.lift (ld input keyptr)
  let accused ← H.lift (ld input (ptr + 69))
  let s ← H.get
  if pair complainer accused ∈ s.loc then
    H.modify fun s => { s with loc := s.loc.set (s.loc.idxOf (pair complainer accused)) 0xffff }
    if accused = 0 ∨ complainer = 0 then H.lift (.ub .oob)
    else
      let m8 := ((accused.toNat - 1) * s.ctx.n.toNat + (complainer.toNat - 1)) * msg8Size
      let key ← H.lift (rd input (keyptr + 1) 32)
      tp18ShareF G log scratch accused complainer m8 (toB32 key)
  else addCheater 18 6 accused complainer 4

/-- One iteration of the loop over the accused peers, tp-dkg.c:1352-1465. -/
def tp18BodyF (log : Bool) (scratch : B32) (input : Bytes) (ctr : List ℕ) (i : ℕ) : H Run Unit := do
  let c ← H.lift (ld ctr i)
  if c = 0 then pure ()
  else
    let len := hdrSize + 33 * c
    let s ← H.get
    let ptr := s.r
    dump log input ptr len
    let ret ← tpRecvF input ptr len 11 (idx i) 0
    if ret ≠ 0 then addCheater 18 (32 + ret) (idx i) 0xfe 4
    else H.forN c (tp18KeyF G log scratch input ptr)
    H.modify fun s => { s with r := s.r + len }

/-- `tp_step18_handler`, tp-dkg.c:1335-1483. `scratch` is the indeterminate content of a local variable of
`dkg_verify_commitment`. -/
def tp18F (log : Bool) (scratch : B32) (input : Bytes) : H Run Int := do
  let s ← H.get
  let size ← H.lift (tpInputSize s.ctx)
  if input.length ≠ size then H.ret 1
  else if s.out.length ≠ 0 then H.ret 2
  else if s.ctx.complaintsLen = 0 then H.lift (.ub .vla)
  else
    let cs ← H.lift (rd s.ctx.complaints 0 s.ctx.complaintsLen.toNat)
    let ctr ← H.lift (count18 cs (List.replicate s.ctx.n.toNat 0))
    H.modify fun s => { s with loc := cs, r := 0 }
    H.forN s.ctx.n.toNat (tp18BodyF G log scratch input ctr)
    let s ← H.get
    tp18Rest s.loc
    setCtx fun ctx => { ctx with step := 99 }
    pure 3

/-- One iteration of `tp_step20_handler`, tp-dkg.c:1513-1535. -/
def tp20BodyF (log : Bool) (input : Bytes) (hash : B32) (i : ℕ) : H Run Unit := do
  let ptr := i * msg19Size
  dump log input ptr msg19Size
  let ret ← tpRecvF input ptr msg19Size 20 (idx i) 0
  if ret ≠ 0 then do
    addCheater 20 (1 + ret) (idx i) 0 4
    setOut hdrSize [78, 79]
  else
    let data ← H.lift (rd input (ptr + hdrSize) 32)
    if hash.toList ≠ data then do
      addCheater 20 1 (idx i) 0 4
      setOut hdrSize [78, 79]
    else pure ()

/-- `tp_step20_handler`, tp-dkg.c:1501-1546. -/
def tp20F (clock : ℕ → UInt64) (log : Bool) (input : Bytes) : H Run Int := do
  let s ← H.get
  let n := s.ctx.n.toNat
  if msg19Size * n ≠ input.length then H.ret 1
  else if s.out.length ≠ msg20Size then H.ret 2
  else
    let hash := Hashes.generichash32 s.ctx.transcript
    setOut hdrSize [79, 75]
    H.forN n (tp20BodyF log input hash)
    tpSend clock 0 s.out.length 21 0xff
    let s ← H.get
    if s.ctx.cheaterLen = 0 then pure 0
    else
      setCtx fun ctx => { ctx with step := 99 }
      pure 3

/-- One iteration of `tp_step22_handler`, tp-dkg.c:1586-1603. An answer other than "OK" is only written to the log. -/
def tp22BodyF (log : Bool) (input : Bytes) (i : ℕ) : H Run Unit := do
  let ptr := i * msg21Size
  dump log input ptr msg21Size
  let ret ← tpRecvF input ptr msg21Size 22 (idx i) 0
  if ret ≠ 0 then addCheater 22 (64 + ret) (idx i) 0 6
  else
    let _ ← H.lift (rd input (ptr + hdrSize) 2)
    pure ()

/-- `tp_step22_handler`, tp-dkg.c:1579-1607. -/
def tp22F (log : Bool) (input : Bytes) : H Run Int := do
  let s ← H.get
  let n := s.ctx.n.toNat
  if msg21Size * n ≠ input.length then H.ret 1
  else if s.out.length ≠ 0 then H.ret 2
  else
    H.forN n (tp22BodyF log input)
    noCheaters 5
    pure 0

/-- The handler of the current step, tp-dkg.c:1611-1634. -/
def tpHandlerF (clock : ℕ → UInt64) (log : Bool) (scratch : B32) (input : Bytes) (step : ℕ) : H Run Int :=
  match step with
  | 0 => tp1 clock log input
  | 1 => tp4F clock log input
  | 2 => tp68F log input
  | 3 => tp68F log input
  | 4 => tp12F clock log input
  | 5 => tp14F log input
  | 6 => tp16F clock log input
  | 7 => tp18F G log scratch input
  | 8 => tp20F clock log input
  | 9 => tp22F log input
  | _ => pure 99

/-- `tpdkg_tp_next`, tp-dkg.c:1609-1639: return value, state, output buffer. -/
def tpNextF (clock : ℕ → UInt64) (log : Bool) (scratch : B32) (ctx : TP) (input out : Bytes) : C (Int × TP × Bytes) := do
  if ctx.step > 9 then .ok (99, ctx, out)
  else
    let (ret, s) ← (tpHandlerF G clock log scratch input ctx.step).result ⟨ctx, out, 0, 0, []⟩
    let c := s.ctx
    if ctx.step = 6 then
      .ok (ret, { c with prev := c.step, step := c.step + (if c.complaintsLen = 0 then 2 else 1) }, s.out)
    else
      .ok (ret, { c with prev := c.step, step := if ret ≠ 0 then 99 else c.step + 1 }, s.out)

end Verif.TpDkg
