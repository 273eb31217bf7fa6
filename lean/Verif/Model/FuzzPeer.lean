import Verif.Model.FuzzRecv
import Verif.Model.Peer

/-!
# The peers of the library built for fuzzing, `/repo/src/tp-dkg.c:746-1667`

The definitions are those of `Model/Peer.lean` with `recv_msg` of this build, which checks neither time stamps nor signatures. Steps
that receive nothing are taken from there.
-/

set_option linter.unusedSectionVars false

namespace Verif.TpDkg

open Wire

variable [Signing] [Hashes] [NoiseCrypto]

/-- `tpdkg_start_peer`, tp-dkg.c:683-725; `ctx->tp_last_ts` is 0. -/
def startPeerF (ctx : PeerState) (eps : UInt64) (log : Bool) (ltSk : B64) (msg0 : Bytes) : C (Int × PeerState) := do
  let _ ← if log then rd msg0 0 msg0Size else .ok []
  let sid ← rd msg0 79 32
  let ret ← recvMsgFuzz msg0 0 msg0Size 0 0 0xff (toB32 sid)
  let ctx := { ctx with eps, tpLastTs := 0 }
  if ret ≠ 0 then .ok (64 + ret, ctx)
  else
  let pk ← rd msg0 hdrSize 32
  let n ← ld msg0 (hdrSize + 64)
  let t ← ld msg0 (hdrSize + 65)
  let ctx := { ctx with sid := toB32 sid, tpSigPk := toB32 pk, n, t }
  if t < 2 then .ok (1, ctx)
  else if t ≥ n then .ok (2, ctx)
  else if n > 128 then .ok (3, ctx)
  else
    let m ← rd msg0 0 msg0Size
    .ok (0, { ctx with
      complaintsLen := 0, myLen := 0, ltSk, transcript := updateTranscript transcriptInit m, dev := .null, step := 0 })

namespace Peer

/-- `recv_msg(..., &ctx->tp_last_ts)`; neither the key nor the time stamp is used. -/
def recvTpF (input : Bytes) (msgno rcp : UInt8) : H PRun Int := do
  let s ← H.get
  H.lift (recvMsgFuzz input 0 input.length msgno 0 rcp s.ctx.sid)

/-- `recv_msg(ptr, ..., &ctx->last_ts[i])` for a message of peer `i`. -/
def recvF (input : Bytes) (off len : ℕ) (msgno rcp : UInt8) (i : ℕ) : H PRun Int := do
  let s ← H.get
  H.lift (recvMsgFuzz input off len msgno (idx i) rcp s.ctx.sid)

/-- `peer_step23_handler`, tp-dkg.c:746-784. -/
def step23F (clock : ℕ → UInt64) (log : Bool) (rnd : Rnd) (input : Bytes) : H PRun Int := do
  let s ← H.get
  if input.length ≠ msg1Size then H.ret 1
  else if s.out.length ≠ msg2Size + 64 then H.ret 2
  else
    dump log input 0 msg1Size
    let rcp ← H.lift (ld input 70)
    let ret ← recvTpF input 1 rcp
    if ret ≠ 0 then H.ret (4 + ret)
    else if rcp > 128 ∨ rcp < 1 then H.ret 3
    else
      setCtx fun ctx => { ctx with
        index := rcp
        sigPk := Signing.pkOf rnd.seed
        sigSk := Signing.skOf rnd.seed
        noiseSk := rnd.noiseSk
        noisePk := NoiseCrypto.xbase rnd.noiseSk }
      setOut hdrSize (Signing.pkOf rnd.seed).toList
      setOut (hdrSize + 32) (NoiseCrypto.xbase rnd.noiseSk).toList
      send clock 0 msg2Size 2 0xff
      let s ← H.get
      let m ← H.lift (rd s.out 0 msg2Size)
      setOut msg2Size (Signing.sign s.ctx.ltSk m).toList
      setCtx fun ctx => { ctx with ltSk := Vector.replicate 64 0 }
      dumpOut log 0 (msg2Size + 64)
      pure 0

/-- One iteration of `peer_step5_handler`, tp-dkg.c:843-866. -/
def step5BodyF (clock : ℕ → UInt64) (log : Bool) (rnd : Rnd) (input : Bytes) (i : ℕ) : H PRun Unit := do
  let ptr := hdrSize + i * msg2Size
  let w := i * msg4Size
  dump log input ptr msg2Size
  let pk ← H.lift (rd input (ptr + hdrSize) 32)
  let ret ← recvF input ptr msg2Size 2 0xff i
  if ret ≠ 0 then H.ret (64 + ret)
  else
    let npk ← H.lift (rd input (ptr + hdrSize + 32) 32)
    setKeys i (toB32 pk) (toB32 npk)
    initSession (toB32 npk) (rnd.einit i) i (w + hdrSize)
    send clock w msg4Size 4 (idx i)
    dumpOut log w msg4Size

/-- `peer_step5_handler`, tp-dkg.c:823-869. -/
def step5F (clock : ℕ → UInt64) (log : Bool) (rnd : Rnd) (input : Bytes) : H PRun Int := do
  let s ← H.get
  let n := s.ctx.n.toNat
  if input.length ≠ msg2Size * n + hdrSize then H.ret 1
  else if s.out.length ≠ msg4Size * n then H.ret 2
  else
    let ret ← recvTpF input 3 0xff
    if ret ≠ 0 then H.ret (32 + ret)
    else
      transcript input
      setCtx fun ctx => { ctx with dev := .live (Noise.deviceCreate prologue ctx.noiseSk) }
      H.forN n (step5BodyF clock log rnd input)
      pure 0

/-- One iteration of `peer_step7_handler`, tp-dkg.c:908-929. -/
def step7BodyF (clock : ℕ → UInt64) (log : Bool) (rnd : Rnd) (input : Bytes) (i : ℕ) : H PRun Unit := do
  let ptr := i * msg4Size
  dump log input ptr msg4Size
  let s ← H.get
  let ret ← recvF input ptr msg4Size 4 s.ctx.index i
  if ret ≠ 0 then H.ret (64 + ret)
  else
    let m ← H.lift (rd input (ptr + hdrSize) 48)
    respondSession (rnd.eresp i) m i (ptr + hdrSize)
    send clock ptr msg5Size 5 (idx i)
    dumpOut log ptr msg5Size

/-- `peer_step7_handler`, tp-dkg.c:901-932. -/
def step7F (clock : ℕ → UInt64) (log : Bool) (rnd : Rnd) (input : Bytes) : H PRun Int := do
  let s ← H.get
  let n := s.ctx.n.toNat
  if input.length ≠ msg4Size * n then H.ret 1
  else if s.out.length ≠ msg5Size * n then H.ret 2
  else
    H.forN n (step7BodyF clock log rnd input)
    pure 0

/-- One iteration of the loop of `peer_step911_handler`, tp-dkg.c:940-951. -/
def step911BodyF (log : Bool) (input : Bytes) (i : ℕ) : H PRun Unit := do
  let ptr := i * msg5Size
  dump log input ptr msg5Size
  let s ← H.get
  let ret ← recvF input ptr msg5Size 5 s.ctx.index i
  if ret ≠ 0 then H.ret (64 + ret)
  else
    let m ← H.lift (rd input (ptr + hdrSize) 48)
    finishSession log m i

variable [Mac] (G : Type) [Ristretto G]

/-- `peer_step911_handler`, tp-dkg.c:934-963. `mlock` is the success of `sodium_mlock` in `dkg_start`. -/
def step911F (clock : ℕ → UInt64) (log mlock : Bool) (rnd : Rnd) (input : Bytes) : H PRun Int := do
  let s ← H.get
  let n := s.ctx.n.toNat
  let t := s.ctx.t
  if input.length ≠ msg5Size * n then H.ret 1
  else if s.out.length ≠ msg6Size t then H.ret 2
  else
    H.forN n (step911BodyF log input)
    let s ← H.get
    let (ret, cs, shares) ← H.lift (Dkg.start G mlock s.ctx.n t rnd.coeff (List.replicate t.toNat zero32) s.ctx.shares)
    if ret ≠ 0 then H.ret 4
    else
      setCtx fun ctx => { ctx with shares }
      setOut hdrSize (flat cs)
      send clock 0 (msg6Size t) 6 0xff
      dumpOut log 0 (msg6Size t)
      pure 0

/-- One iteration of `peer_step13_handler`, tp-dkg.c:1027-1073. A rejected message leads to `return 64+ret` with `ret` of
the enclosing message, which is 0. -/
def step13BodyF (clock : ℕ → UInt64) (log : Bool) (input : Bytes) (t : UInt8) (i : ℕ) : H PRun Unit := do
  let ptr := hdrSize + i * msg6Size t
  let w := i * msg8Size
  dump log input ptr (msg6Size t)
  let ret ← recvF input ptr (msg6Size t) 6 0xff i
  if ret ≠ 0 then H.ret 64
  else
    let data ← H.lift (rd input (ptr + hdrSize) (32 * t.toNat))
    setCommitments (i * t.toNat) (toB32s t.toNat data)
    encrypt [] (w + hdrSize) 64 i 5
    let s ← H.get
    let share ← H.lift (ld s.ctx.shares i)
    encrypt (shareBytes share) (w + hdrSize + 64) 49 i 6
    commitKey (w + hdrSize + 64) i
    send clock w msg8Size 8 (idx i)
    dumpOut log w msg8Size

/-- `peer_step13_handler`, tp-dkg.c:1007-1076. -/
def step13F (clock : ℕ → UInt64) (log : Bool) (input : Bytes) : H PRun Int := do
  let s ← H.get
  let n := s.ctx.n.toNat
  let t := s.ctx.t
  if input.length ≠ hdrSize + msg6Size t * n then H.ret 1
  else if s.out.length ≠ n * msg8Size then H.ret 2
  else
    dump log input 0 input.length
    let ret ← recvTpF input 7 0xff
    if ret ≠ 0 then H.ret (32 + ret)
    else
      transcript input
      H.forN n (step13BodyF clock log input t)
      pure 0

/-- One iteration of the loop of `peer_step15_handler`, tp-dkg.c:1116-1143. -/
def step15BodyF (log : Bool) (input : Bytes) (i : ℕ) : H PRun Unit := do
  let ptr := i * msg8Size
  dump log input ptr msg8Size
  let s ← H.get
  let ret ← recvF input ptr msg8Size 8 s.ctx.index i
  if ret ≠ 0 then H.ret (64 + ret)
  else
    let h3 ← H.lift (rd input (ptr + hdrSize) 64)
    let _ ← decrypt h3 0 i 4
    let mac ← H.lift (rd input (ptr + hdrSize + 113) 32)
    let box ← H.lift (rd input (ptr + hdrSize + 64) 49)
    let s ← H.get
    let slot ← H.lift (ld s.ctx.ins i)
    let key ← H.lift (keyAt slot)
    if (Mac.auth key box).toList ≠ mac then H.ret 5
    else
      let plain ← decrypt box 33 i 6
      setXshare i ⟨plain.headD 0, toB32 plain.tail⟩

/-- `peer_step15_handler`, tp-dkg.c:1110-1176. The result of `dkg_verify_commitments` is ignored; all `n` rows of the
commitments are read. -/
def step15F (clock : ℕ → UInt64) (log : Bool) (scratch : B32) (input : Bytes) : H PRun Int := do
  let s ← H.get
  let n := s.ctx.n.toNat
  let t := s.ctx.t
  if input.length ≠ n * msg8Size then H.ret 1
  else if s.out.length ≠ msg9Size s.ctx.n then H.ret 2
  else
    H.forN n (step15BodyF log input)
    let s ← H.get
    let cs ← H.lift (rd s.ctx.commitments 0 (n * t.toNat))
    let (_, fails, len) ← H.lift (Dkg.verifyCommitments G scratch s.ctx.n t s.ctx.index (rows n t.toNat cs) s.ctx.xshares
      (List.replicate n 0))
    setOut (hdrSize + 1) fails
    setOut hdrSize [len]
    dumpOut log (hdrSize + 1) len.toNat
    send clock 0 (msg9Size s.ctx.n) 9 0xff
    dumpOut log 0 (msg9Size s.ctx.n)
    pure 0

/-- One iteration of `peer_step17_handler`, tp-dkg.c:1265-1290; the conditions use `msg9->len` without `ntohl`. -/
def step17BodyF (log : Bool) (input : Bytes) (n : UInt8) (i : ℕ) : H PRun Unit := do
  let ptr := hdrSize + i * msg9Size n
  dump log input ptr (msg9Size n)
  let ret ← recvF input ptr (msg9Size n) 9 0xff i
  if ret ≠ 0 then H.ret (32 + ret)
  else
  let l ← H.lift (rd input (ptr + 65) 4)
  let d ← H.lift (ld input (ptr + hdrSize))
  if lenField l < UInt64.ofNat d.toNat then H.ret 5
  else H.forN (min d.toNat ((lenField l).toNat - 1)) (step17Inner input (ptr + hdrSize) i)

/-- `peer_step17_handler`, tp-dkg.c:1246-1298. -/
def step17F (log : Bool) (input : Bytes) : H PRun Int := do
  let s ← H.get
  let n := s.ctx.n
  if input.length ≠ msg10Size n then H.ret 1
  else if s.out.length ≠ 0 then H.ret 2
  else
    dump log input 0 input.length
    let ret ← recvTpF input 10 0xff
    if ret ≠ 0 then H.ret (16 + ret)
    else
      transcript input
      H.forN n.toNat (step17BodyF log input n)
      let s ← H.get
      if s.ctx.complaintsLen = 0 then do
        setCtx fun ctx => { ctx with prev := ctx.step, step := ctx.step + 1 }
        pure 0
      else pure 0

/-- `peer_step21_handler`, tp-dkg.c:1548-1577. -/
def step21F (clock : ℕ → UInt64) (log : Bool) (input : Bytes) : H PRun Int := do
  let s ← H.get
  if input.length ≠ msg20Size then H.ret 1
  else if s.out.length ≠ msg21Size then H.ret 2
  else
    dump log input 0 input.length
    let ret ← recvTpF input 21 0xff
    if ret ≠ 0 then H.ret (4 + ret)
    else
      let data ← H.lift (rd input hdrSize 2)
      if data = [79, 75] then
        let s ← H.get
        let share ← H.lift (Dkg.finish s.ctx.n s.ctx.xshares { s.ctx.share with index := s.ctx.index })
        setCtx fun ctx => { ctx with share }
        setOut hdrSize data
        send clock 0 msg21Size 22 0
        dumpOut log 0 msg21Size
        pure 0
      else H.ret 4

/-- The handler of the current step, tp-dkg.c:1643-1662. -/
def handlerF (clock : ℕ → UInt64) (log mlock : Bool) (scratch : B32) (rnd : Rnd) (input : Bytes) (step : ℕ) :
    H PRun Int :=
  match step with
  | 0 => step23F clock log rnd input
  | 1 => step5F clock log rnd input
  | 2 => step7F clock log rnd input
  | 3 => step911F G clock log mlock rnd input
  | 4 => step13F clock log input
  | 5 => step15F G clock log scratch input
  | 6 => step17F log input
  | 7 => step17a clock log input
  | 8 => step19 clock log input
  | 9 => step21F clock log input
  | 10 => pure 0
  | _ => pure 99

end Peer

variable (G : Type) [Ristretto G] [Mac]

/-- `tpdkg_peer_next`, tp-dkg.c:1641-1667: return value, state, output buffer. -/
def peerNextF (clock : ℕ → UInt64) (log mlock : Bool) (scratch : B32) (rnd : Rnd) (ctx : PeerState) (input out : Bytes) :
    C (Int × PeerState × Bytes) := do
  let (ret, s) ← (Peer.handlerF G clock log mlock scratch rnd input ctx.step).result ⟨ctx, out⟩
  .ok (ret, { s.ctx with prev := s.ctx.step, step := if ret ≠ 0 then 99 else s.ctx.step + 1 }, s.out)

end Verif.TpDkg
