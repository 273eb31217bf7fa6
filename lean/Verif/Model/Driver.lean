import Verif.Spec.Honest
import Verif.Model.ShareCheck

/-!
# The test program of the key generation, `/repo/src/tests/tp-dkg.c:79-99` and `357-584`

Trusted party and peers run in one process over a simulated network.

* The program is built without `UNITTEST_CORRUPT`, `FUZZ_DUMP` and `FUZZING_BUILD_MODE_UNSAFE_FOR_PRODUCTION`.
* The arguments of the command line are given as `n` and `t`, the values of `(uint8_t) atoi(...)`.
* The arrays `peers_sig_pks` and `peers_noise_pks` are shared by the peers in the program (line 451, "in a real deployment
  peers do not share the same pks buffers"). Here every peer has its own.
* Bytes of local buffers that nothing was received into are arbitrary values (`PEnv.buf`).
* The size of the stack is not modelled; the network buffers need 16 MiB each.
* The loops get a bound `k` on the number of their passes; a loop that needs more has the outcome `diverge`.
* Output to `stderr` is left out.
-/

namespace Verif.TpDkg.Driver

open Wire

/-- `NETWORK_BUF_SIZE`, tests/tp-dkg.c:82 -/
def netSize : ℕ := 1024 * 1024 * 16

/-- `network_buf[i]` and `pkt_len[i]`. -/
structure Chan where
  buf : Bytes
  len : ℕ

/-- `_send`, tests/tp-dkg.c:84-91. A message of length 0 stands for NULL as well. -/
def send (c : Chan) (msg : Bytes) : C Chan :=
  if c.len + msg.length ≥ netSize ∨ msg.length = 0 then .ok c
  else do
    let buf ← wr c.buf c.len msg
    .ok ⟨buf, c.len + msg.length⟩

/-- `_recv` into the buffer `buf`, tests/tp-dkg.c:93-100. -/
def recv (c : Chan) (buf : Bytes) : C (Bytes × Chan) :=
  if c.len < buf.length ∨ buf.length = 0 then .ok (buf, c)
  else do
    let m ← rd c.buf 0 buf.length
    .ok (m, { c with len := c.len - buf.length })

/-- The variables of `main` during the protocol: `net` is the channel to the trusted party, `nets` those to the peers. -/
structure Vars where
  tp : TP
  peers : List PeerState
  net : Chan
  nets : List Chan

/-- The loop over `tpdkg_tp_peer_msg`, tests/tp-dkg.c:502-509: `m` passes are left, the next one is pass `i`. The result is
`none` if the program returns 1. -/
def sendAll (tp : TP) (out : Bytes) : (m i : ℕ) → List Chan → C (Option (List Chan))
  | 0, _, nets => .ok (some nets)
  | m + 1, i, nets =>
    match tpPeerMsg tp out.length (UInt8.ofNat i) with
    | (r, some (off, len)) =>
      if r ≠ 0 then .ok none
      else do
        let msg ← match off with
          | none => .ok []
          | some off => rd out off len
        let c ← ld nets i
        let c ← send c msg
        let nets ← st nets i c
        sendAll tp out m (i + 1) nets
    | (_, none) => .ok none

/-- `tpdkg_peer_free` for all peers, tests/tp-dkg.c:497, 543 and 579. -/
def freeAll : List PeerState → C (List PeerState)
  | [] => .ok []
  | p :: ps => do
    let p ← peerFree p
    let ps ← freeAll ps
    .ok (p :: ps)

variable [Signing] [Hashes] [NoiseCrypto] [Mac] (G : Type) [Ristretto G]

/-- The loop over the peers, tests/tp-dkg.c:512-549, from peer `i` on. It ends with the first result that is not 0. -/
def pass (env : ℕ → PEnv) : (i : ℕ) → List PeerState → List Chan → Chan → C (Int × List PeerState × List Chan × Chan)
  | i, p :: ps, c :: cs, net => do
    let e := env i
    let (input, c) ← recv c (e.buf (peerInputSize p))
    let (r, p, out) ← peerNext G e.clock e.log e.mlock e.scratch e.rnd p input (e.buf (peerOutputSize p))
    if r ≠ 0 then .ok (r, p :: ps, c :: cs, net)
    else do
      let net ← send net out
      let (r, ps, cs, net) ← pass env (i + 1) ps cs net
      .ok (r, p :: ps, c :: cs, net)
  | _, ps, cs, net => .ok (0, ps, cs, net)

/-- The inner loop, tests/tp-dkg.c:511-550. -/
def inner (env : ℕ → PEnv) : ℕ → Vars → C (Int × Vars)
  | 0, _ => .ub .diverge
  | k + 1, v =>
    if v.net.len ≠ 0 then .ok (0, v)
    else do
      let p ← ld v.peers 1
      if peerNotDone p = false then .ok (0, v)
      else do
        let (r, peers, nets, net) ← pass G env 0 v.peers v.nets v.net
        if r ≠ 0 then do
          let peers ← freeAll peers
          .ok (r, { v with peers, nets, net })
        else inner env k { v with peers, nets, net }

/-- How the protocol ends: the program returns, or it goes on with the check of the result. -/
inductive Outcome
  | returns (r : Int)
  | over (v : Vars)

/-- The main loop, tests/tp-dkg.c:467-551. -/
def loop (tpEnv : PEnv) (env : ℕ → PEnv) : ℕ → Vars → C Outcome
  | 0, _ => .ub .diverge
  | k + 1, v =>
    if tpNotDone v.tp = false then .ok (.over v)
    else do
      let size ← tpInputSize v.tp
      let (input, net) ← recv v.net (tpEnv.buf size)
      let (r, tp, out) ← tpNext G tpEnv.clock tpEnv.log tpEnv.scratch v.tp input (tpEnv.buf (tpOutputSize v.tp))
      if r ≠ 0 then do
        let peers ← freeAll v.peers
        if tp.cheaterLen > 0 then .ok (.over { v with tp, net, peers }) else .ok (.returns r)
      else do
        match ← sendAll tp out tp.n.toNat 0 v.nets with
        | none => .ok (.returns 1)
        | some nets =>
          let (r, v) ← inner G env (k + 1) { v with tp, net, nets }
          if r ≠ 0 then .ok (.returns r) else loop tpEnv env k v

/-- The list of cheaters, tests/tp-dkg.c:565-573: `m` entries are left, the next one is entry `i`; `tmp` counts. -/
def listCheaters (cheaters : List Cheater) (n : UInt8) : (m i : ℕ) → (tmp : List UInt8) → C (Option (List UInt8))
  | 0, _, tmp => .ok (some tmp)
  | m + 1, i, tmp => do
    let c ← ld cheaters i
    let p := (cheaterMsg c).1
    if p > n then .ok none
    else do
      let x ← ld tmp p.toNat
      let tmp ← st tmp p.toNat (x + 1)
      listCheaters cheaters n m (i + 1) tmp

/-- The end of `main`, tests/tp-dkg.c:553-584. `rand`, `junk` and `scratch` are for `verify_shares`. -/
def finish (junk : UInt8) (scratch : B32) (rand : ℕ → ℕ → ℕ) (n t : UInt8) (v : Vars) : C Int :=
  if v.tp.cheaterLen = 0 then do
    let r ← Tests.verifyShares G junk scratch rand (v.peers.map (·.share)) t.toNat
    if r ≠ 0 then .ok 1
    else do
      let _ ← freeAll v.peers
      .ok 0
  else do
    let _ ← listCheaters v.tp.cheaters n v.tp.cheaterLen 0 (List.replicate (n.toNat + 1) 0)
    .ok 1

/-- What the program gets from outside: arguments, random values, clocks and the content of memory that it does not
initialise (`tp0`, `peer0`, `msg0`, `lastTs`, `noisePks`, `bufs`). -/
structure Input where
  n : UInt8
  t : UInt8
  sid : B32
  /-- the seed of the signing key of the trusted party -/
  seed : B32
  /-- the seeds of the long-term keys of the peers -/
  lt : ℕ → B32
  tpEnv : PEnv
  env : ℕ → PEnv
  tp0 : TP
  peer0 : ℕ → PeerState
  msg0 : Vector UInt8 177
  lastTs : ℕ → UInt64
  noisePks : ℕ → ℕ → B32
  bufs : ℕ → Vector UInt8 netSize
  rand : ℕ → ℕ → ℕ
  junk : UInt8
  scratch : B32

/-- `"proto test"`, tests/tp-dkg.c:395 -/
def protoName : Bytes := [112, 114, 111, 116, 111, 32, 116, 101, 115, 116]

/-- The arguments of the calls that start the parties, with the buffers of `main`, tests/tp-dkg.c:395-416 and 428-459. -/
def Input.setup (I : Input) : Setup where
  n := I.n
  t := I.t
  name := protoName
  sid := I.sid
  seed := I.seed
  eps := 120000
  msg0 := I.msg0.toList
  tp0 := { I.tp0 with
    sigPks := List.replicate I.n.toNat zero32
    commitments := List.replicate (I.n.toNat * I.t.toNat) zero32
    complaints := List.replicate (I.n.toNat * I.n.toNat) 0
    encShares := List.replicate (I.n.toNat * I.n.toNat * msg8Size) 0
    cheaters := List.replicate (I.t.toNat * I.t.toNat - 1) ⟨0, 0, 0, 0, 0⟩
    cheaterMax := I.t.toNat * I.t.toNat - 1
    lastTs := (List.range I.n.toNat).map I.lastTs }
  tpEnv := I.tpEnv
  peer0 := fun i => { I.peer0 i with
    sigPks := List.replicate I.n.toNat zero32
    noisePks := (List.range I.n.toNat).map (I.noisePks i)
    outs := List.replicate I.n.toNat .null
    ins := List.replicate I.n.toNat .null
    shares := List.replicate I.n.toNat ⟨0, zero32⟩
    xshares := List.replicate I.n.toNat ⟨0, zero32⟩
    commitments := List.replicate (I.n.toNat * I.t.toNat) zero32
    complaints := List.replicate (I.n.toNat * I.n.toNat) 0
    mine := List.replicate I.n.toNat 0
    lastTs := List.replicate I.n.toNat 0 }
  env := I.env
  lt := I.lt

/-- The loop over `tpdkg_start_peer`, tests/tp-dkg.c:421-424: `m` passes are left, the next one is pass `i`. -/
def startAll (S : Setup) (msg0 : Bytes) : (m i : ℕ) → C (Int × List PeerState)
  | 0, _ => .ok (0, [])
  | m + 1, i => do
    let p := S.peer0 i
    let e := S.env i
    let (r, c) ← startPeer p (e.clock p.ticks) S.eps e.log (Signing.skOf (S.lt i)) msg0
    if r ≠ 0 then .ok (r, [])
    else do
      let (r, cs) ← startAll S msg0 m (i + 1)
      .ok (r, c :: cs)

/-- The loop over `tpdkg_peer_set_bufs`, tests/tp-dkg.c:449-457, from peer `i` on. -/
def setAll (S : Setup) : (i : ℕ) → List PeerState → C (List PeerState)
  | _, [] => .ok []
  | i, c :: cs => do
    let p := S.peer0 i
    let c ← peerSetBufs c p.sigPks p.noisePks p.outs p.ins p.shares p.xshares p.commitments p.complaints p.mine p.lastTs
    let cs ← setAll S (i + 1) cs
    .ok (c :: cs)

/-- `main`, tests/tp-dkg.c:357-584. The arrays of lines 387 and 389 have `n` elements, that of line 405 has `n * t` and
that of line 412 `t * t - 1`. -/
def main (k : ℕ) (I : Input) : C Int :=
  let S := I.setup
  if I.n = 0 then .ub .vla
  else do
    let (r, tp, m0) ← startTp S.tp0 (S.tpEnv.clock S.tp0.ticks) S.eps S.n S.t S.name S.sid S.seed S.msg0
    if r ≠ 0 then .ok r
    else if I.t.toNat * I.t.toNat ≤ 1 then .ub .vla
    else do
      let tp ← tpSetBufs tp (S.tpEnv.clock tp.ticks) S.tp0.commitments S.tp0.complaints S.tp0.encShares S.tp0.cheaters
        S.tp0.cheaterMax S.tp0.sigPks S.ltPks S.tp0.lastTs
      let (r, peers) ← startAll S m0 S.n.toNat 0
      if r ≠ 0 then .ok r
      else do
        let peers ← setAll S 0 peers
        let nets := (List.range S.n.toNat).map fun i => (⟨(I.bufs (i + 1)).toList, 0⟩ : Chan)
        match ← loop G S.tpEnv S.env k ⟨tp, peers, ⟨(I.bufs 0).toList, 0⟩, nets⟩ with
        | .returns r => .ok r
        | .over v => finish G I.junk I.scratch I.rand I.n I.t v

end Verif.TpDkg.Driver
