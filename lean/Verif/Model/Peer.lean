import Verif.Model.Tp

/-!
# The peers of the TP-DKG protocol, src/tp-dkg.c

`log`, `clock`, `input` and the output buffer are treated as in `Verif.Model.Tp`. The drawn random values are the fields
of `Rnd`. A pointer to a session or to the device may be indeterminate, NULL, valid or dangling (`Ptr`). The code under
`UNITTEST_CORRUPT` and `UNITTEST`, the names of peers and the allocation of temporary messages are not modelled.
-/

namespace Verif.TpDkg

open Wire

/-- A pointer to a heap object that is owned by the peer. -/
inductive Ptr (α : Type) where
  | uninit
  | null
  | live (a : α)
  | freed

namespace Ptr

variable {α : Type}

/-- The use of a pointer: `none` for NULL. -/
def deref : Ptr α → C (Option α)
  | .uninit => .ub .uninit
  | .null => .ok none
  | .live a => .ok (some a)
  | .freed => .ub .freed

/-- `if(p!=NULL) free(p)`; the pointer itself is not changed. -/
def free : Ptr α → C (Ptr α)
  | .uninit => .ub .uninit
  | .null => .ok .null
  | .live _ => .ok .freed
  | .freed => .ub .doubleFree

end Ptr

/-- The random values drawn by a peer: the seed of its signing key, its Noise key, the ephemeral keys of the sessions
it opens and answers and the coefficients of its polynomial. -/
structure Rnd where
  seed : B32
  noiseSk : B32
  einit : ℕ → B32
  eresp : ℕ → B32
  coeff : ℕ → B32

/-- `TP_DKG_PeerState`, tp-dkg.h:144-174; the buffers set by `tpdkg_peer_set_bufs` are part of the state, `transcript` holds
the bytes hashed so far and `ticks` counts the calls of `time`. -/
structure PeerState where
  step : ℕ
  prev : ℕ
  sid : B32
  n : UInt8
  t : UInt8
  index : UInt8
  ltSk : B64
  sigPk : B32
  sigSk : B64
  noisePk : B32
  noiseSk : B32
  tpSigPk : B32
  tpLastTs : UInt64
  lastTs : List UInt64
  eps : UInt64
  sigPks : List B32
  noisePks : List B32
  dev : Ptr Noise.Device
  outs : List (Ptr Noise.Session)
  ins : List (Ptr Noise.Session)
  commitments : List B32
  shares : List Share
  xshares : List Share
  complaintsLen : UInt16
  complaints : List UInt16
  myLen : UInt8
  mine : List UInt8
  transcript : Bytes
  share : Share
  ticks : ℕ

/-- State during a call of `tpdkg_peer_next`: the context and the output buffer. -/
structure PRun where
  ctx : PeerState
  out : Bytes

/-! ## Sizes -/

/-- `tpdkg_peer_input_size`, tp-dkg.c:516-534. -/
def peerInputSize (ctx : PeerState) : ℕ :=
  let n := ctx.n.toNat
  match ctx.step with
  | 0 => msg1Size
  | 1 => msg2Size * n + hdrSize
  | 2 => msg4Size * n
  | 3 => msg5Size * n
  | 4 => hdrSize + msg6Size ctx.t * n
  | 5 => n * msg8Size
  | 6 => msg10Size ctx.n
  | 7 => 0
  | 8 => 0
  | 9 => msg20Size
  | 10 => 0
  | _ => 1

/-- `tpdkg_peer_output_size`, tp-dkg.c:536-562. -/
def peerOutputSize (ctx : PeerState) : ℕ :=
  let n := ctx.n.toNat
  match ctx.step with
  | 0 => msg2Size + 64
  | 1 => msg4Size * n
  | 2 => msg5Size * n
  | 3 => msg6Size ctx.t
  | 4 => n * msg8Size
  | 5 => msg9Size ctx.n
  | 6 => 0
  | 7 =>
    if ctx.complaintsLen > 0 then
      if ctx.myLen > 0 then hdrSize + ctx.myLen.toNat * 33 else 0
    else msg19Size
  | 8 => msg19Size
  | 9 => msg21Size
  | 10 => 0
  | _ => 1

/-- `tpdkg_peer_not_done`, tp-dkg.c:592-594 -/
def peerNotDone (ctx : PeerState) : Bool := ctx.step < 11

/-! ## Start and end -/

/-- `tpdkg_peer_set_bufs`, tp-dkg.c:564-586, with the caller's buffers. -/
def peerSetBufs (ctx : PeerState) (sigPks noisePks : List B32) (outs ins : List (Ptr Noise.Session))
    (shares xshares : List Share) (commitments : List B32) (complaints : List UInt16) (mine : List UInt8)
    (lastTs : List UInt64) : C PeerState := do
  let lastTs ← wr lastTs 0 (List.replicate ctx.n.toNat 0)
  .ok { ctx with sigPks, noisePks, outs, ins, shares, xshares, commitments, complaints, mine, lastTs }

/-- The loop of `tpdkg_peer_free`, tp-dkg.c:597-600; `m` iterations to go. -/
def freeLoop : (m i : ℕ) → (ins outs : List (Ptr Noise.Session)) →
    C (List (Ptr Noise.Session) × List (Ptr Noise.Session))
  | 0, _, ins, outs => .ok (ins, outs)
  | m + 1, i, ins, outs => do
    let p ← ld ins i
    let p ← p.free
    let ins ← st ins i p
    let q ← ld outs i
    let q ← q.free
    let outs ← st outs i q
    freeLoop m (i + 1) ins outs

/-- `tpdkg_peer_free`, tp-dkg.c:596-602. -/
def peerFree (ctx : PeerState) : C PeerState := do
  let (ins, outs) ← freeLoop ctx.n.toNat 0 ctx.ins ctx.outs
  let dev ← ctx.dev.free
  .ok { ctx with ins, outs, dev }

variable [Signing] [Hashes]

/-- `tpdkg_start_peer`, tp-dkg.c:683-725. `msg0` is a buffer of `tpdkg_msg0_SIZE` bytes. The fields that are not
initialised keep their values in `ctx`. -/
def startPeer (ctx : PeerState) (now eps : UInt64) (log : Bool) (ltSk : B64) (msg0 : Bytes) : C (Int × PeerState) := do
  let _ ← if log then rd msg0 0 msg0Size else .ok []
  let pk ← rd msg0 hdrSize 32
  let sid ← rd msg0 79 32
  let (ret, last, k) ← recvMsg now msg0 0 msg0Size 0 0 0xff (toB32 pk) (toB32 sid) eps 0
  let ctx := { ctx with eps, tpLastTs := last, ticks := ctx.ticks + k }
  if ret ≠ 0 then .ok (64 + ret, ctx)
  else
  let n ← ld msg0 (hdrSize + 64)
  let t ← ld msg0 (hdrSize + 65)
  let ctx := { ctx with sid := toB32 sid, tpSigPk := toB32 pk, n, t }
  if t < 2 then .ok (1, ctx)
  else if t ≥ n then .ok (2, ctx)
  else if n > 128 then .ok (3, ctx)
  else
    let m ← rd msg0 0 msg0Size
    .ok (0, { ctx with
      complaintsLen := 0, myLen := 0, ltSk, transcript := updateTranscript transcriptInit m, dev := .null, step := 0 })

/-! ## Noise sessions -/

variable [NoiseCrypto]

/-- `tpdkg_init_noise_handshake`, tp-dkg.c:157-191: return value, device, `*session` and what is copied to `msg`. -/
def initNoise (dv : Noise.Device) (slot : Ptr Noise.Session) (rpk epriv : B32) :
    Int × Noise.Device × Ptr Noise.Session × Option Bytes :=
  match Noise.deviceAddPeer dv rpk with
  | (none, dv) => (1, dv, slot, none)
  | (some pid, dv) =>
    match Noise.createInitiator dv pid epriv with
    | (none, dv) => (2, dv, .null, none)
    | (some sn, dv) =>
      match Noise.sessionWrite (Noise.pack 0 []) sn with
      | (rc, out, sn) =>
        if !rc.isSuccess then (3, dv, .freed, none)
        else
          let m := out.getD []
          if m.length ≠ 48 then (4, dv, .freed, none)
          else (0, dv, .live sn, some m)

/-- `tpdkg_respond_noise_handshake`, tp-dkg.c:193-239: return value, device, `*session` and what is copied to `outmsg`. -/
def respondNoise (dv : Noise.Device) (inmsg : Bytes) (epriv : B32) :
    Int × Noise.Device × Ptr Noise.Session × Option Bytes :=
  match Noise.createResponder dv epriv with
  | (none, dv) => (1, dv, .null, none)
  | (some sn, dv) =>
    match Noise.sessionRead dv.peers sn inmsg with
    | (rc, em, sn) =>
      if !rc.isSuccess then (2, dv, .freed, none)
      else
      match em.bind (Noise.unpack 0) with
      | none => (3, dv, .freed, none)
      | some _ =>
        match Noise.sessionWrite (Noise.pack 0 []) sn with
        | (rc, out, sn) =>
          if !rc.isSuccess then (4, dv, .freed, none)
          else
            let m := out.getD []
            if m.length ≠ 48 then (4, dv, .freed, none)
            else (0, dv, .live sn, some m)

/-- `Noise_XK_device_lookup_peer_by_id`, XK.c:1225-1259. -/
def lookupPeer (dv : Noise.Device) (pid : UInt32) : Option Noise.Peer :=
  if pid = 0 then none else dv.peers.find? fun p => p.id == pid

/-- `tpdkg_finish_noise_handshake`, tp-dkg.c:241-283: return value and `*session`. -/
def finishNoise (log : Bool) (dv : Noise.Device) (slot : Ptr Noise.Session) (msg : Bytes) :
    C (Int × Ptr Noise.Session) := do
  match ← slot.deref with
  | none => .ok (1, slot)
  | some sn =>
    if log ∧ lookupPeer dv sn.pid = none then .ok (2, .freed)
    else
    match Noise.sessionRead dv.peers sn msg with
    | (rc, em, sn) =>
      if !rc.isSuccess then .ok (4, .freed)
      else
      match em.bind (Noise.unpack 0) with
      | none => .ok (5, .freed)
      | some _ => .ok (0, .live sn)

/-- `tpdkg_noise_encrypt`, tp-dkg.c:285-314: return value, `*session` and what is copied to `output`. -/
def encryptNoise (slot : Ptr Noise.Session) (input : Bytes) (outputLen : ℕ) :
    C (Int × Ptr Noise.Session × Option Bytes) := do
  match ← slot.deref with
  | none => .ok (1, slot, none)
  | some sn =>
    if input.length > 1024 then .ok (2, slot, none)
    else
    match Noise.sessionWrite (Noise.pack 5 input) sn with
    | (rc, out, sn) =>
      if !rc.isSuccess then .ok (3, .live sn, none)
      else
        let m := out.getD []
        if m.length ≠ outputLen then .ok (4, .live sn, none)
        else .ok (0, .live sn, some m)

/-- `tpdkg_noise_decrypt`, tp-dkg.c:316-352: return value, `*session` and what is copied to `output`; an empty text is
not copied, `output` is NULL only for `outputLen = 0`. -/
def decryptNoise (dv : Noise.Device) (slot : Ptr Noise.Session) (input : Bytes) (outputLen : ℕ) :
    C (Int × Ptr Noise.Session × Option Bytes) := do
  match ← slot.deref with
  | none => .ok (1, slot, none)
  | some sn =>
    if input.length > 1024 then .ok (2, slot, none)
    else
    match Noise.sessionRead dv.peers sn input with
    | (rc, em, sn) =>
      if !rc.isSuccess then .ok (3, .live sn, none)
      else
      match em.bind (Noise.unpack 2) with
      | none => .ok (4, .live sn, none)
      | some m =>
        if m.length ≠ outputLen then .ok (5, .live sn, none)
        else .ok (0, .live sn, some m)

/-- `Noise_XK_session_get_key(p)` followed by a read of the key. -/
def keyAt (slot : Ptr Noise.Session) : C B32 := do
  match ← slot.deref with
  | none => .ub .null
  | some sn => match Noise.sessionGetKey sn with
    | none => .ub .null
    | some k => .ok k

/-! ## Helpers of the steps -/

namespace Peer

def setCtx (f : PeerState → PeerState) : H PRun Unit := H.modify fun s => { s with ctx := f s.ctx }

/-- The reads of `dump(buf+off, len)`. -/
def dump (log : Bool) (buf : Bytes) (off len : ℕ) : H PRun Unit :=
  if log then do
    let _ ← H.lift (rd buf off len)
    pure ()
  else pure ()

/-- `dump(output+off, len)`. -/
def dumpOut (log : Bool) (off len : ℕ) : H PRun Unit := do
  let s ← H.get
  dump log s.out off len

/-- `recv_msg(..., ctx->tp_sig_pk, ctx->sessionid, ctx->ts_epsilon, &ctx->tp_last_ts)`. -/
def recvTp (clock : ℕ → UInt64) (input : Bytes) (msgno rcp : UInt8) : H PRun Int := do
  let s ← H.get
  let (r, last, k) ← H.lift (recvMsg (clock s.ctx.ticks) input 0 input.length msgno 0 rcp s.ctx.tpSigPk s.ctx.sid
    s.ctx.eps s.ctx.tpLastTs)
  setCtx fun ctx => { ctx with tpLastTs := last, ticks := ctx.ticks + k }
  pure r

/-- `recv_msg(ptr, ..., &ctx->last_ts[i])` for a message of peer `i`. -/
def recv (clock : ℕ → UInt64) (input : Bytes) (off len : ℕ) (msgno rcp : UInt8) (pk : B32) (i : ℕ) : H PRun Int := do
  let s ← H.get
  let last ← H.lift (ld s.ctx.lastTs i)
  let (r, last, k) ← H.lift (recvMsg (clock s.ctx.ticks) input off len msgno (idx i) rcp pk s.ctx.sid s.ctx.eps last)
  let lastTs ← H.lift (st s.ctx.lastTs i last)
  setCtx fun ctx => { ctx with lastTs, ticks := ctx.ticks + k }
  pure r

/-- `send_msg(output+off, ...)` of a peer. -/
def send (clock : ℕ → UInt64) (off len : ℕ) (msgno rcp : UInt8) : H PRun Unit := do
  let s ← H.get
  let out ← H.lift (sendMsg (clock s.ctx.ticks) s.out off len msgno s.ctx.index rcp s.ctx.sigSk s.ctx.sid)
  H.modify fun s => { s with out, ctx := { s.ctx with ticks := s.ctx.ticks + 1 } }

/-- `memcpy(output+off, b, len)`. -/
def setOut (off : ℕ) (b : Bytes) : H PRun Unit := do
  let s ← H.get
  let out ← H.lift (wr s.out off b)
  H.modify fun s => { s with out }

/-- `update_transcript(&ctx->transcript, input, input_len)`. -/
def transcript (input : Bytes) : H PRun Unit :=
  setCtx fun ctx => { ctx with transcript := updateTranscript ctx.transcript input }

/-- `(*ctx->peer_sig_pks)[i]` -/
def sigPkOf (i : ℕ) : H PRun B32 := do
  let s ← H.get
  H.lift (ld s.ctx.sigPks i)

/-- `ctx->dev`, which the Noise library uses without a test for NULL. -/
def getDev : H PRun Noise.Device := do
  let s ← H.get
  match ← H.lift s.ctx.dev.deref with
  | none => H.lift (.ub .null)
  | some dv => pure dv

def setOuts (i : ℕ) (p : Ptr Noise.Session) : H PRun Unit := do
  let s ← H.get
  let outs ← H.lift (st s.ctx.outs i p)
  setCtx fun ctx => { ctx with outs }

def setIns (i : ℕ) (p : Ptr Noise.Session) : H PRun Unit := do
  let s ← H.get
  let ins ← H.lift (st s.ctx.ins i p)
  setCtx fun ctx => { ctx with ins }

/-- A copy to the output buffer if there is something to copy. -/
def copy (off : ℕ) (m : Option Bytes) : H PRun Unit :=
  match m with
  | none => pure ()
  | some m => setOut off m

/-! ## Steps -/

/-- `peer_step23_handler`, tp-dkg.c:746-784. -/
def step23 (clock : ℕ → UInt64) (log : Bool) (rnd : Rnd) (input : Bytes) : H PRun Int := do
  let s ← H.get
  if input.length ≠ msg1Size then H.ret 1
  else if s.out.length ≠ msg2Size + 64 then H.ret 2
  else
    dump log input 0 msg1Size
    let rcp ← H.lift (ld input 70)
    let ret ← recvTp clock input 1 rcp
    if ret ≠ 0 then H.ret (4 + ret)
    else if rcp > 128 ∨ rcp < 1 then H.ret 3
    else
      setCtx fun ctx => { ctx with
        index := rcp
        sigPk := Signing.pkOf rnd.seed
        sigSk := Signing.skOf rnd.seed
        noiseSk := rnd.noiseSk
        noisePk := NoiseCrypto.xbase rnd.noiseSk }
      setOut hdrSize (Signing.pkOf rnd.seed).toList
      setOut (hdrSize + 32) (NoiseCrypto.xbase rnd.noiseSk).toList
      send clock 0 msg2Size 2 0xff
      let s ← H.get
      let m ← H.lift (rd s.out 0 msg2Size)
      setOut msg2Size (Signing.sign s.ctx.ltSk m).toList
      setCtx fun ctx => { ctx with ltSk := Vector.replicate 64 0 }
      dumpOut log 0 (msg2Size + 64)
      pure 0

/-- `"dpkg p2p v0.1"`, tp-dkg.c:838 -/
def prologue : Bytes := [100, 112, 107, 103, 32, 112, 50, 112, 32, 118, 48, 46, 49]

/-- The call of `tpdkg_init_noise_handshake`, whose result is ignored, tp-dkg.c:860. -/
def initSession (rpk epriv : B32) (i off : ℕ) : H PRun Unit := do
  let dv ← getDev
  let s ← H.get
  let slot ← H.lift (ld s.ctx.outs i)
  let r := initNoise dv slot rpk epriv
  setCtx fun ctx => { ctx with dev := .live r.2.1 }
  setOuts i r.2.2.1
  copy off r.2.2.2

/-- The keys of peer `i`, tp-dkg.c:852-853. -/
def setKeys (i : ℕ) (pk npk : B32) : H PRun Unit := do
  let s ← H.get
  let sigPks ← H.lift (st s.ctx.sigPks i pk)
  let noisePks ← H.lift (st s.ctx.noisePks i npk)
  setCtx fun ctx => { ctx with sigPks, noisePks }

/-- One iteration of `peer_step5_handler`, tp-dkg.c:843-866. -/
def step5Body (clock : ℕ → UInt64) (log : Bool) (rnd : Rnd) (input : Bytes) (i : ℕ) : H PRun Unit := do
  let ptr := hdrSize + i * msg2Size
  let w := i * msg4Size
  dump log input ptr msg2Size
  let pk ← H.lift (rd input (ptr + hdrSize) 32)
  let ret ← recv clock input ptr msg2Size 2 0xff (toB32 pk) i
  if ret ≠ 0 then H.ret (64 + ret)
  else
    let npk ← H.lift (rd input (ptr + hdrSize + 32) 32)
    setKeys i (toB32 pk) (toB32 npk)
    initSession (toB32 npk) (rnd.einit i) i (w + hdrSize)
    send clock w msg4Size 4 (idx i)
    dumpOut log w msg4Size

/-- `peer_step5_handler`, tp-dkg.c:823-869. -/
def step5 (clock : ℕ → UInt64) (log : Bool) (rnd : Rnd) (input : Bytes) : H PRun Int := do
  let s ← H.get
  let n := s.ctx.n.toNat
  if input.length ≠ msg2Size * n + hdrSize then H.ret 1
  else if s.out.length ≠ msg4Size * n then H.ret 2
  else
    let ret ← recvTp clock input 3 0xff
    if ret ≠ 0 then H.ret (32 + ret)
    else
      transcript input
      setCtx fun ctx => { ctx with dev := .live (Noise.deviceCreate prologue ctx.noiseSk) }
      H.forN n (step5Body clock log rnd input)
      pure 0

/-- The call of `tpdkg_respond_noise_handshake`, whose result is ignored, tp-dkg.c:922. -/
def respondSession (epriv : B32) (inmsg : Bytes) (i off : ℕ) : H PRun Unit := do
  let dv ← getDev
  let r := respondNoise dv inmsg epriv
  setCtx fun ctx => { ctx with dev := .live r.2.1 }
  setIns i r.2.2.1
  copy off r.2.2.2

/-- One iteration of `peer_step7_handler`, tp-dkg.c:908-929. -/
def step7Body (clock : ℕ → UInt64) (log : Bool) (rnd : Rnd) (input : Bytes) (i : ℕ) : H PRun Unit := do
  let ptr := i * msg4Size
  dump log input ptr msg4Size
  let pk ← sigPkOf i
  let s ← H.get
  let ret ← recv clock input ptr msg4Size 4 s.ctx.index pk i
  if ret ≠ 0 then H.ret (64 + ret)
  else
    let m ← H.lift (rd input (ptr + hdrSize) 48)
    respondSession (rnd.eresp i) m i (ptr + hdrSize)
    send clock ptr msg5Size 5 (idx i)
    dumpOut log ptr msg5Size

/-- `peer_step7_handler`, tp-dkg.c:901-932. -/
def step7 (clock : ℕ → UInt64) (log : Bool) (rnd : Rnd) (input : Bytes) : H PRun Int := do
  let s ← H.get
  let n := s.ctx.n.toNat
  if input.length ≠ msg4Size * n then H.ret 1
  else if s.out.length ≠ msg5Size * n then H.ret 2
  else
    H.forN n (step7Body clock log rnd input)
    pure 0

/-- The call of `tpdkg_finish_noise_handshake`, whose result is ignored, tp-dkg.c:950. -/
def finishSession (log : Bool) (msg : Bytes) (i : ℕ) : H PRun Unit := do
  let dv ← getDev
  let s ← H.get
  let slot ← H.lift (ld s.ctx.outs i)
  let (_, slot) ← H.lift (finishNoise log dv slot msg)
  setOuts i slot

/-- One iteration of the loop of `peer_step911_handler`, tp-dkg.c:940-951. -/
def step911Body (clock : ℕ → UInt64) (log : Bool) (input : Bytes) (i : ℕ) : H PRun Unit := do
  let ptr := i * msg5Size
  dump log input ptr msg5Size
  let pk ← sigPkOf i
  let s ← H.get
  let ret ← recv clock input ptr msg5Size 5 s.ctx.index pk i
  if ret ≠ 0 then H.ret (64 + ret)
  else
    let m ← H.lift (rd input (ptr + hdrSize) 48)
    finishSession log m i

/-- The bytes of an array of 32-byte values. -/
def flat (l : List B32) : Bytes := l.flatMap (·.toList)

variable [Mac] (G : Type) [Ristretto G]

/-- `peer_step911_handler`, tp-dkg.c:934-963. `mlock` is the success of `sodium_mlock` in `dkg_start`. -/
def step911 (clock : ℕ → UInt64) (log mlock : Bool) (rnd : Rnd) (input : Bytes) : H PRun Int := do
  let s ← H.get
  let n := s.ctx.n.toNat
  let t := s.ctx.t
  if input.length ≠ msg5Size * n then H.ret 1
  else if s.out.length ≠ msg6Size t then H.ret 2
  else
    H.forN n (step911Body clock log input)
    let s ← H.get
    let (ret, cs, shares) ← H.lift (Dkg.start G mlock s.ctx.n t rnd.coeff (List.replicate t.toNat zero32) s.ctx.shares)
    if ret ≠ 0 then H.ret 4
    else
      setCtx fun ctx => { ctx with shares }
      setOut hdrSize (flat cs)
      send clock 0 (msg6Size t) 6 0xff
      dumpOut log 0 (msg6Size t)
      pure 0

/-- A `TOPRF_Share` in memory. -/
def shareBytes (s : Share) : Bytes := s.index :: s.value.toList

/-- `tpdkg_noise_encrypt(input, input_len, output+off, outputLen, &(*ctx->noise_outs)[i])`, whose failure leads to
`return code`. -/
def encrypt (input : Bytes) (off outputLen i : ℕ) (code : Int) : H PRun Unit := do
  let s ← H.get
  let slot ← H.lift (ld s.ctx.outs i)
  let (ret, slot, m) ← H.lift (encryptNoise slot input outputLen)
  setOuts i slot
  if ret ≠ 0 then H.ret code
  else copy off m

/-- `memcpy((*ctx->commitments)[off], data, 32*k)`. -/
def setCommitments (off : ℕ) (data : List B32) : H PRun Unit := do
  let s ← H.get
  let commitments ← H.lift (wr s.ctx.commitments off data)
  setCtx fun ctx => { ctx with commitments }

/-- The call of `crypto_auth`, tp-dkg.c:1061-1064; `off` is the place of the encrypted share. -/
def commitKey (off i : ℕ) : H PRun Unit := do
  let s ← H.get
  let box ← H.lift (rd s.out off 49)
  let slot ← H.lift (ld s.ctx.outs i)
  let key ← H.lift (keyAt slot)
  setOut (off + 49) (Mac.auth key box).toList

/-- One iteration of `peer_step13_handler`, tp-dkg.c:1027-1073. A rejected message leads to `return 64+ret` with `ret` of
the enclosing message, which is 0. -/
def step13Body (clock : ℕ → UInt64) (log : Bool) (input : Bytes) (t : UInt8) (i : ℕ) : H PRun Unit := do
  let ptr := hdrSize + i * msg6Size t
  let w := i * msg8Size
  dump log input ptr (msg6Size t)
  let pk ← sigPkOf i
  let ret ← recv clock input ptr (msg6Size t) 6 0xff pk i
  if ret ≠ 0 then H.ret 64
  else
    let data ← H.lift (rd input (ptr + hdrSize) (32 * t.toNat))
    setCommitments (i * t.toNat) (toB32s t.toNat data)
    encrypt [] (w + hdrSize) 64 i 5
    let s ← H.get
    let share ← H.lift (ld s.ctx.shares i)
    encrypt (shareBytes share) (w + hdrSize + 64) 49 i 6
    commitKey (w + hdrSize + 64) i
    send clock w msg8Size 8 (idx i)
    dumpOut log w msg8Size

/-- `peer_step13_handler`, tp-dkg.c:1007-1076. -/
def step13 (clock : ℕ → UInt64) (log : Bool) (input : Bytes) : H PRun Int := do
  let s ← H.get
  let n := s.ctx.n.toNat
  let t := s.ctx.t
  if input.length ≠ hdrSize + msg6Size t * n then H.ret 1
  else if s.out.length ≠ n * msg8Size then H.ret 2
  else
    dump log input 0 input.length
    let ret ← recvTp clock input 7 0xff
    if ret ≠ 0 then H.ret (32 + ret)
    else
      transcript input
      H.forN n (step13Body clock log input t)
      pure 0

/-- `tpdkg_noise_decrypt(input, input_len, output, outputLen, &(*ctx->noise_ins)[i])`, whose failure leads to
`return code`; the text. -/
def decrypt (input : Bytes) (outputLen i : ℕ) (code : Int) : H PRun Bytes := do
  let dv ← getDev
  let s ← H.get
  let slot ← H.lift (ld s.ctx.ins i)
  let (ret, slot, m) ← H.lift (decryptNoise dv slot input outputLen)
  setIns i slot
  if ret ≠ 0 then H.ret code
  else pure (m.getD [])

/-- The write of `(*ctx->xshares)[i]`. -/
def setXshare (i : ℕ) (x : Share) : H PRun Unit := do
  let s ← H.get
  let xshares ← H.lift (st s.ctx.xshares i x)
  setCtx fun ctx => { ctx with xshares }

/-- One iteration of the loop of `peer_step15_handler`, tp-dkg.c:1116-1143. -/
def step15Body (clock : ℕ → UInt64) (log : Bool) (input : Bytes) (i : ℕ) : H PRun Unit := do
  let ptr := i * msg8Size
  dump log input ptr msg8Size
  let pk ← sigPkOf i
  let s ← H.get
  let ret ← recv clock input ptr msg8Size 8 s.ctx.index pk i
  if ret ≠ 0 then H.ret (64 + ret)
  else
    let h3 ← H.lift (rd input (ptr + hdrSize) 64)
    let _ ← decrypt h3 0 i 4
    let mac ← H.lift (rd input (ptr + hdrSize + 113) 32)
    let box ← H.lift (rd input (ptr + hdrSize + 64) 49)
    let s ← H.get
    let slot ← H.lift (ld s.ctx.ins i)
    let key ← H.lift (keyAt slot)
    if (Mac.auth key box).toList ≠ mac then H.ret 5
    else
      let plain ← decrypt box 33 i 6
      setXshare i ⟨plain.headD 0, toB32 plain.tail⟩

/-- The rows of the array of commitments. -/
def rows (n t : ℕ) (cs : List B32) : List (List B32) := (List.range n).map fun i => (cs.drop (i * t)).take t

/-- `peer_step15_handler`, tp-dkg.c:1110-1176. The result of `dkg_verify_commitments` is ignored; all `n` rows of the
commitments are read. -/
def step15 (clock : ℕ → UInt64) (log : Bool) (scratch : B32) (input : Bytes) : H PRun Int := do
  let s ← H.get
  let n := s.ctx.n.toNat
  let t := s.ctx.t
  if input.length ≠ n * msg8Size then H.ret 1
  else if s.out.length ≠ msg9Size s.ctx.n then H.ret 2
  else
    H.forN n (step15Body clock log input)
    let s ← H.get
    let cs ← H.lift (rd s.ctx.commitments 0 (n * t.toNat))
    let (_, fails, len) ← H.lift (Dkg.verifyCommitments G scratch s.ctx.n t s.ctx.index (rows n t.toNat cs) s.ctx.xshares
      (List.replicate n 0))
    setOut (hdrSize + 1) fails
    setOut hdrSize [len]
    dumpOut log (hdrSize + 1) len.toNat
    send clock 0 (msg9Size s.ctx.n) 9 0xff
    dumpOut log 0 (msg9Size s.ctx.n)
    pure 0

/-- `ctx->complaints[ctx->complaints_len++] = p`. -/
def addComplaint (p : UInt16) : H PRun Unit := do
  let s ← H.get
  let cs ← H.lift (st s.ctx.complaints s.ctx.complaintsLen.toNat p)
  setCtx fun ctx => { ctx with complaints := cs, complaintsLen := ctx.complaintsLen + 1 }

/-- `ctx->my_complaints[ctx->my_complaints_len++] = i`. -/
def addMine (i : UInt8) : H PRun Unit := do
  let s ← H.get
  let mine ← H.lift (st s.ctx.mine s.ctx.myLen.toNat i)
  setCtx fun ctx => { ctx with mine, myLen := ctx.myLen + 1 }

/-- One iteration of the loop over the complaints in a message, tp-dkg.c:1277-1287; `data` is the offset of the body. -/
def step17Inner (input : Bytes) (data i k : ℕ) : H PRun Unit := do
  let x ← H.lift (ld input (data + (k + 1)))
  let s ← H.get
  let p := pair (idx i) x
  let known ← H.lift (rd s.ctx.complaints 0 s.ctx.complaintsLen.toNat)
  if p ∈ known then pure ()
  else
    addComplaint p
    if x = s.ctx.index then addMine (idx i) else pure ()

/-- One iteration of `peer_step17_handler`, tp-dkg.c:1265-1290; the conditions use `msg9->len` without `ntohl`. -/
def step17Body (clock : ℕ → UInt64) (log : Bool) (input : Bytes) (n : UInt8) (i : ℕ) : H PRun Unit := do
  let ptr := hdrSize + i * msg9Size n
  dump log input ptr (msg9Size n)
  let pk ← sigPkOf i
  let ret ← recv clock input ptr (msg9Size n) 9 0xff pk i
  if ret ≠ 0 then H.ret (32 + ret)
  else
  let l ← H.lift (rd input (ptr + 65) 4)
  let d ← H.lift (ld input (ptr + hdrSize))
  if lenField l < UInt64.ofNat d.toNat then H.ret 5
  else H.forN (min d.toNat ((lenField l).toNat - 1)) (step17Inner input (ptr + hdrSize) i)

/-- `peer_step17_handler`, tp-dkg.c:1246-1298. -/
def step17 (clock : ℕ → UInt64) (log : Bool) (input : Bytes) : H PRun Int := do
  let s ← H.get
  let n := s.ctx.n
  if input.length ≠ msg10Size n then H.ret 1
  else if s.out.length ≠ 0 then H.ret 2
  else
    dump log input 0 input.length
    let ret ← recvTp clock input 10 0xff
    if ret ≠ 0 then H.ret (16 + ret)
    else
      transcript input
      H.forN n.toNat (step17Body clock log input n)
      let s ← H.get
      if s.ctx.complaintsLen = 0 then do
        setCtx fun ctx => { ctx with prev := ctx.step, step := ctx.step + 1 }
        pure 0
      else pure 0

/-- One iteration of `peer_step17a_handler`, tp-dkg.c:1313-1321. -/
def step17aBody (i : ℕ) : H PRun Unit := do
  let s ← H.get
  let c ← H.lift (ld s.ctx.mine i)
  let w := hdrSize + i * 33
  setOut w [c]
  if c = 0 then H.lift (.ub .oob)
  else
    let slot ← H.lift (ld s.ctx.outs (c.toNat - 1))
    let key ← H.lift (keyAt slot)
    setOut (w + 1) key.toList

/-- `peer_step17a_handler`, tp-dkg.c:1300-1333. -/
def step17a (clock : ℕ → UInt64) (log : Bool) (input : Bytes) : H PRun Int := do
  let s ← H.get
  if input.length ≠ 0 then H.ret 1
  else if s.out.length ≠ peerOutputSize s.ctx then H.ret 2
  else if s.out.length = 0 then pure 0
  else
    H.forN s.ctx.myLen.toNat step17aBody
    send clock 0 (peerOutputSize s.ctx) 11 0
    dumpOut log 0 (peerOutputSize s.ctx)
    setCtx fun ctx => { ctx with step := 99 }
    pure 0

/-- `peer_step19_handler`, tp-dkg.c:1485-1499. -/
def step19 (clock : ℕ → UInt64) (log : Bool) (input : Bytes) : H PRun Int := do
  let s ← H.get
  if input.length ≠ 0 then H.ret 1
  else if s.out.length ≠ msg19Size then H.ret 2
  else
    setOut hdrSize (Hashes.generichash32 s.ctx.transcript).toList
    send clock 0 msg19Size 20 0
    dumpOut log 0 msg19Size
    pure 0

/-- `peer_step21_handler`, tp-dkg.c:1548-1577. -/
def step21 (clock : ℕ → UInt64) (log : Bool) (input : Bytes) : H PRun Int := do
  let s ← H.get
  if input.length ≠ msg20Size then H.ret 1
  else if s.out.length ≠ msg21Size then H.ret 2
  else
    dump log input 0 input.length
    let ret ← recvTp clock input 21 0xff
    if ret ≠ 0 then H.ret (4 + ret)
    else
      let data ← H.lift (rd input hdrSize 2)
      if data = [79, 75] then
        let s ← H.get
        let share ← H.lift (Dkg.finish s.ctx.n s.ctx.xshares { s.ctx.share with index := s.ctx.index })
        setCtx fun ctx => { ctx with share }
        setOut hdrSize data
        send clock 0 msg21Size 22 0
        dumpOut log 0 msg21Size
        pure 0
      else H.ret 4

/-- The handler of the current step, tp-dkg.c:1643-1662. -/
def handler (clock : ℕ → UInt64) (log mlock : Bool) (scratch : B32) (rnd : Rnd) (input : Bytes) (step : ℕ) :
    H PRun Int :=
  match step with
  | 0 => step23 clock log rnd input
  | 1 => step5 clock log rnd input
  | 2 => step7 clock log rnd input
  | 3 => step911 G clock log mlock rnd input
  | 4 => step13 clock log input
  | 5 => step15 G clock log scratch input
  | 6 => step17 clock log input
  | 7 => step17a clock log input
  | 8 => step19 clock log input
  | 9 => step21 clock log input
  | 10 => pure 0
  | _ => pure 99

end Peer

variable (G : Type) [Ristretto G] [Mac]

/-- `tpdkg_peer_next`, tp-dkg.c:1641-1667: return value, state, output buffer. -/
def peerNext (clock : ℕ → UInt64) (log mlock : Bool) (scratch : B32) (rnd : Rnd) (ctx : PeerState) (input out : Bytes) :
    C (Int × PeerState × Bytes) := do
  let (ret, s) ← (Peer.handler G clock log mlock scratch rnd input ctx.step).result ⟨ctx, out⟩
  .ok (ret, { s.ctx with prev := s.ctx.step, step := if ret ≠ 0 then 99 else s.ctx.step + 1 }, s.out)

end Verif.TpDkg
