import Verif.Model.FuzzLoop

/-!
# The program that makes test cases, `/repo/src/tests/tp-dkg.c:101-119`, `363-382`, `487-489` and `524-526`

The build of the test program with `FUZZ_DUMP`, `fuzz-dump` in `tests/fuzz/makefile:24`. It runs the protocol up to a step and
writes the input of the trusted party in that step to a file.

* The arguments are a list; its first element is the name of the program. `atoi` is a parameter, and so is whether `fopen`
  can open a file.
* The results of `fwrite` and `fclose` are ignored by the program. They are taken to succeed.
* As in `Model/FuzzLoop.lean` the library is a parameter.
* `fuzz-dump-peer`, makefile line 27, writes the input of the first peer (line 525).
-/

namespace Verif.TpDkg.Driver

/-- How the program with `FUZZ_DUMP` ends: without a file, or with the file `path` and the return value 0, or it goes on with
the check of the result. -/
inductive Dump
  | returns (r : Int)
  | writes (path : String) (content : Bytes)
  | over (v : Vars)

/-- The arguments, tests/tp-dkg.c:363-382: the value of `step`, or the program ends. `peer` is the build with `FUZZ_PEER`. The
pointer behind the last argument is NULL, and `atoi` reads what it is given. -/
def dumpArgs (peer : Bool) (atoi : String → Int) (args : List String) : C (Except Int ℕ) :=
  if args.length < 3 then .ok (.error 1)
  else
    match args[3]? with
    | none => .ub .null
    | some a =>
      let step := (atoi a % 256).toNat
      if step < 1 ∨ step > 9 ∨ (peer ∧ (step = 7 ∨ step = 8)) then .ok (.error 1) else .ok (.ok step)

/-- `fuzz_dump`, tests/tp-dkg.c:101-119, in step `now` of the protocol: `none` if it returns. A file that cannot be opened is
NULL for `fwrite`. -/
def fuzzDump (opens : String → Bool) (args : List String) (step now : ℕ) (input : Bytes) : C (Option Dump) :=
  match args[4]? with
  | none => .ok (some (.returns 1))
  | some path =>
    if now = step then
      if opens path then .ok (some (.writes path input)) else .ub .null
    else .ok none

namespace Build

variable (B : Build)

/-- The main loop, tests/tp-dkg.c:467-551, with the call of `fuzz_dump` in line 488. -/
def dumpLoop (opens : String → Bool) (args : List String) (step : ℕ) : ℕ → Vars → C Dump
  | 0, _ => .ub .diverge
  | k + 1, v =>
    if tpNotDone v.tp = false then .ok (.over v)
    else do
      let size ← tpInputSize v.tp
      let (input, net) ← recv v.net (B.buf size)
      match ← fuzzDump opens args step v.tp.step input with
      | some d => .ok d
      | none =>
        let (r, tp, out) ← B.tpNext v.tp input (B.buf (tpOutputSize v.tp))
        if r ≠ 0 then do
          let peers ← freeAll v.peers
          if tp.cheaterLen > 0 then .ok (.over { v with tp, net, peers }) else .ok (.returns r)
        else do
          match ← sendAll tp out tp.n.toNat 0 v.nets with
          | none => .ok (.returns 1)
          | some nets =>
            let (r, v) ← B.inner (k + 1) { v with tp, net, nets }
            if r ≠ 0 then .ok (.returns r) else dumpLoop opens args step k v

/-! ## The variant for peers -/

/-- The loop over the peers with the call of `fuzz_dump` in line 525, tests/tp-dkg.c:512-549: `m` passes are left, the next one
is pass `i`. -/
def dumpPasses (opens : String → Bool) (args : List String) (step : ℕ) : (m i : ℕ) → Vars → C Dump
  | 0, _, v => .ok (.over v)
  | m + 1, i, v => do
    let p ← ld v.peers i
    let c ← ld v.nets i
    let (input, c) ← recv c (B.pbuf i (peerInputSize p))
    let nets ← st v.nets i c
    match ← (if i = 0 then fuzzDump opens args step p.step input else .ok none) with
    | some d => .ok d
    | none => do
      let (r, p, out) ← B.peerNext i p input (B.pbuf i (peerOutputSize p))
      let peers ← st v.peers i p
      if r ≠ 0 then do
        let _ ← freeAll peers
        .ok (.returns r)
      else do
        let net ← send v.net out
        dumpPasses opens args step m (i + 1) { v with peers, net, nets }

/-- The inner loop, tests/tp-dkg.c:511-550. -/
def dumpInner (opens : String → Bool) (args : List String) (step : ℕ) : ℕ → Vars → C Dump
  | 0, _ => .ub .diverge
  | k + 1, v =>
    if v.net.len ≠ 0 then .ok (.over v)
    else do
      let p ← ld v.peers 1
      if peerNotDone p = false then .ok (.over v)
      else do
        match ← B.dumpPasses opens args step v.peers.length 0 v with
        | .returns r => .ok (.returns r)
        | .writes path b => .ok (.writes path b)
        | .over v => dumpInner opens args step k v

/-- The main loop with `FUZZ_PEER`, tests/tp-dkg.c:467-551. -/
def dumpLoopP (opens : String → Bool) (args : List String) (step : ℕ) : ℕ → Vars → C Dump
  | 0, _ => .ub .diverge
  | k + 1, v =>
    if tpNotDone v.tp = false then .ok (.over v)
    else do
      let size ← tpInputSize v.tp
      let (input, net) ← recv v.net (B.buf size)
      let (r, tp, out) ← B.tpNext v.tp input (B.buf (tpOutputSize v.tp))
      if r ≠ 0 then do
        let peers ← freeAll v.peers
        if tp.cheaterLen > 0 then .ok (.over { v with tp, peers, net }) else .ok (.returns r)
      else do
        match ← sendAll tp out tp.n.toNat 0 v.nets with
        | none => .ok (.returns 1)
        | some nets => do
          match ← B.dumpInner opens args step (k + 1) { v with tp, nets, net } with
          | .returns r => .ok (.returns r)
          | .writes path b => .ok (.writes path b)
          | .over v => dumpLoopP opens args step k v

end Build

end Verif.TpDkg.Driver
