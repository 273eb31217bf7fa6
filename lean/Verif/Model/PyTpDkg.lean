import Verif.Model.PyDkg
import Verif.Model.Driver

/-!
# Model of `test_tp_dkg`, `/repo/python/tests/test.py:200-286`, and of `/repo/python/examples/tpdkg_test.py`

Trusted party and peers run in one process; the functions are those of the wrapper, `/repo/python/pyoprf/__init__.py:541-707`.

* What is drawn, the clocks and the contents of the contexts before they are initialised are parameters (`Input`). In the
  program the contexts are zeros.
* The allocator returns addresses that are multiples of 16, so that the contexts are aligned (lines 545-551 and 650-656).
* The exception handler of lines 244-249 prints the cheaters and raises another exception. Here it only raises.
* The loops get a bound `k` on the number of their passes; a loop that needs more ends as `undef`.
* Printing is left out.
-/

namespace Verif.PyTests.Tp

open Ristretto Verif.Py TpDkg Wire

/-- `"pyoprf tpdkg test"`, test.py:222. It is a string and not `bytes`: the C code gets an array of `wchar_t`. -/
def protoName : Val := .str [112, 121, 111, 112, 114, 102, 32, 116, 112, 100, 107, 103, 32, 116, 101, 115, 116]

/-- What `tpdkg_start_tp` reads as name: `len(proto_name)` bytes through the pointer. -/
def nameRead : Bytes := (protoName.ptr.getD []).take (protoName.len.getD 0)

/-- `ctypes.create_string_buffer(init, n * 32)` as `n` strings of 32 bytes. -/
def padded (init : Bytes) (n : ℕ) : List B32 := toB32 (init ++ List.replicate (32 - init.length) 0) :: List.replicate (n - 1) zero32

/-- What the test gets from outside. -/
structure Input where
  sid : B32
  /-- the seed of the signing key of the trusted party -/
  seed : B32
  /-- the seeds of the long-term keys of the peers -/
  lt : ℕ → B32
  tpEnv : PEnv
  env : ℕ → PEnv
  tp0 : TP
  peer0 : ℕ → PeerState
  junk : UInt8
  scratch : B32

/-- The environment of a call through the wrapper: output buffers are zeros. -/
def zeroed (e : PEnv) : PEnv := { e with junk := fun _ => 0 }

/-- The arguments of the calls that start the parties, with the buffers of __init__.py:553-576 and 660-682, for `n = 5`,
`t = 3` and `ts_epsilon = 5`, test.py:202-204. -/
def Input.setup (I : Input) : Setup where
  n := 5
  t := 3
  name := nameRead
  sid := I.sid
  seed := I.seed
  eps := 5
  msg0 := List.replicate msg0Size 0
  tp0 := { I.tp0 with
    sigPks := List.replicate 5 zero32
    commitments := List.replicate (5 * 3) zero32
    complaints := List.replicate (5 * 5) 0
    encShares := List.replicate (5 * 5 * msg8Size) 0
    cheaters := List.replicate (3 * 3 - 1) ⟨0, 0, 0, 0, 0⟩
    cheaterMax := 3 * 3 - 1
    lastTs := List.replicate 5 0 }
  tpEnv := zeroed I.tpEnv
  peer0 := fun i => { I.peer0 i with
    sigPks := padded [112, 101, 101, 114, 95, 115, 105, 103, 95, 112, 107, 115] 5
    noisePks := padded [112, 101, 101, 114, 95, 110, 111, 105, 115, 101, 95, 112, 107, 115] 5
    outs := List.replicate 5 .null
    ins := List.replicate 5 .null
    shares := List.replicate 5 ⟨0, zero32⟩
    xshares := List.replicate 5 ⟨0, zero32⟩
    commitments := List.replicate (5 * 3) zero32
    complaints := List.replicate (5 * 5) 0
    mine := List.replicate 5 0
    lastTs := List.replicate 5 0 }
  env := fun i => zeroed (I.env i)
  lt := I.lt

/-- A call of a C function whose result the wrapper checks. -/
def call {α : Type} (c : C (Int × α)) : Run α := checked id (.reached c)

/-- A call of a C function without result. -/
def call0 {α : Type} (c : C α) : Run α := plain id (.reached c)

/-- `tpdkg_tp_peer_msg`, __init__.py:605-610, and the choice of the message, test.py:255-259. `tp_out` is a buffer or the
empty string. -/
def peerMsg (tp : TP) (out : Bytes) (i : ℕ) : Run Val :=
  if out.length > 0 then
    match tpPeerMsg tp out.length (UInt8.ofNat i) with
    | (r, some (off, len)) =>
      if r ≠ 0 then .raised
      else match off with
        | none => if len = 0 then .ret (.bytes []) else .undef
        | some off => call0 (rd out off len) >>= fun m => .ret (.bytes m)
    | (_, none) => .raised
  else .ret (.str [])

/-- The loop over `tpdkg_peer_free`, test.py:284-286. -/
def freeAll : List PeerState → Run Unit
  | [] => .ret ()
  | p :: ps => do
    let _ ← call0 (peerFree p)
    freeAll ps

variable [Signing] [Hashes] [NoiseCrypto] [Mac] (G : Type) [Ristretto G]

/-- The loop over the peers, test.py:254-263, from peer `i` on. The result are the contexts and `peer_msgs`. -/
def pass (env : ℕ → PEnv) (tp : TP) (out : Bytes) : (i : ℕ) → List PeerState → Run (List PeerState × List Bytes)
  | _, [] => .ret ([], [])
  | i, p :: ps => do
    let e := env i
    let msg ← peerMsg tp out i
    let x ← checked id (Py.peerNext G e.clock e.log e.mlock e.scratch e.rnd p msg)
    let y ← pass env tp out (i + 1) ps
    .ret (x.1 :: y.1, if x.2.length > 0 then x.2 :: y.2 else y.2)

/-- The inner loop, test.py:253-264. -/
def inner (env : ℕ → PEnv) (tp : TP) : ℕ → Bytes → List PeerState → List Bytes → Run (List PeerState × List Bytes)
  | 0, _, _, _ => .undef
  | k + 1, out, peers, msgs =>
    if msgs.flatten.length ≠ 0 then .ret (peers, msgs)
    else
      match peers[0]? with
      | none => .raised
      | some p =>
        if peerNotDone p = false then .ret (peers, msgs)
        else do
          let x ← pass G env tp out 0 peers
          inner env tp k [] x.1 (msgs ++ x.2)

/-- The main loop, test.py:236-264. -/
def loop (tpEnv : PEnv) (env : ℕ → PEnv) : ℕ → TP → List PeerState → List Bytes → Run (TP × List PeerState)
  | 0, _, _, _ => .undef
  | k + 1, tp, peers, msgs =>
    if tpNotDone tp = false then .ret (tp, peers)
    else do
      let _ ← call0 (tpInputSizes tp)
      let x ← checked id (Py.tpNext G tpEnv.clock tpEnv.log tpEnv.scratch tp (.bytes msgs.flatten))
      let y ← inner G env x.1 (k + 1) x.2 peers []
      loop tpEnv env k x.1 y.1 y.2

/-- `tpdkg_peer_start`, __init__.py:645-689, for the peers `i`, …, test.py:228-231: `m` passes are left. `msg0` is passed as
it is; the zero byte that Python keeps behind it is not read. -/
def startAll (S : Setup) (msg0 : Bytes) : (m i : ℕ) → Run (List PeerState)
  | 0, _ => .ret []
  | m + 1, i => do
    let p := S.peer0 i
    let e := S.env i
    let c ← call (startPeer p (e.clock p.ticks) S.eps e.log (Signing.skOf (S.lt i)) msg0)
    let c ← call0 (peerSetBufs c p.sigPks p.noisePks p.outs p.ins p.shares p.xshares p.commitments p.complaints p.mine p.lastTs)
    let cs ← startAll S msg0 m (i + 1)
    .ret (c :: cs)

/-- The assertions after the start, test.py:233-235, from peer `i` on. -/
def sameStart (S : Setup) (tp : TP) : (i : ℕ) → List PeerState → Run Unit
  | _, [] => .ret ()
  | i, p :: ps => do
    assertEqual p.sid tp.sid
    assertEqual (Signing.skOf (S.lt i)) p.ltSk
    sameStart S tp (i + 1) ps

/-- `test_tp_dkg`, test.py:200-286, and the example, tpdkg_test.py:31-114, which differ in the check of the shares. -/
def program (check : List Bytes → Run Unit) (k : ℕ) (I : Input) : Run Unit := do
  let S := I.setup
  let x ← call (startTp S.tp0 (S.tpEnv.clock S.tp0.ticks) S.eps S.n S.t S.name S.sid S.seed S.msg0)
  let tp ← call0 (tpSetBufs x.1 (S.tpEnv.clock x.1.ticks) S.tp0.commitments S.tp0.complaints S.tp0.encShares S.tp0.cheaters
    S.tp0.cheaterMax S.tp0.sigPks S.ltPks S.tp0.lastTs)
  let peers ← startAll S x.2 5 0
  sameStart S tp 0 peers
  let y ← loop G S.tpEnv S.env k tp peers []
  check (y.2.map fun p => pack p.share)
  freeAll y.2

/-- `test_tp_dkg`, test.py:200-286. -/
def test (k : ℕ) (I : Input) : Run Unit := program G (checkShares (realDkg G I.junk I.scratch) G) k I

/-- The check of the shares in the example, tpdkg_test.py:101-110. -/
def checkExample (lib : DkgLib) (shares : List Bytes) : Run Unit := do
  let ps ← powers G shares [0, 1, 2]
  let v0 ← lib.thresholdmult ps
  PyTests.compare lib G shares v0 [[2, 0, 3], [2, 1, 4]]
  let secret ← lib.reconstruct (shares.take 3)
  let v1 ← sodiumBase G secret
  assertEqual v0 v1

/-- The example `/repo/python/examples/tpdkg_test.py`; the log is enabled by `log_file.value = cstderr.value`, which is a field of
the environments. -/
def exampleProg (k : ℕ) (I : Input) : Run Unit := program G (checkExample G (realDkg G I.junk I.scratch)) k I

end Verif.PyTests.Tp
