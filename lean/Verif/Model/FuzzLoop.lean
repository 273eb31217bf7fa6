import Verif.Model.Driver

/-!
# The fuzzing of the key generation, `/repo/src/tests/tp-dkg.c:121-353`, `483-486` and `527-530`

Both variants of `fuzz_loop` of the build with `FUZZING_BUILD_MODE_UNSAFE_FOR_PRODUCTION`, and the main loops that
call them.

* In this build `tp-dkg.c` is compiled without the checks of time stamps, signatures and codes (lines 134, 150, 800 and 1412).
  So the functions of the library are a parameter, `Build`. `production` are those of the other builds.
* The macros of AFL: the test cases of a process are a list, `__AFL_LOOP(10000)` gives one after the other.
* `memcpy` of the states copies the structures, but not the arrays that they point to. In the model the arrays are part of
  the states, so the copy is `TP.back` and `PeerState.back`: they take the fields of the structure from the copy and the
  content of the arrays from the present. Sessions and devices are memory behind pointers; the pointers in the arrays stay.
  The device is a pointer in the structure: what it points to at the time of the copy is restored in the model, but
  the program only restores the pointer.
* `ticks`, the number of calls of `time`, goes on.
* As in `Model/Driver.lean` the loops get a bound on their passes, and output is left out.
-/

namespace Verif.TpDkg

/-- `memcpy(tp, &checkpoint, ...)`, tests/tp-dkg.c:221, in the present state `now`. -/
def TP.back (now checkpoint : TP) : TP :=
  { checkpoint with
    lastTs := now.lastTs
    sigPks := now.sigPks
    ltPks := now.ltPks
    commitments := now.commitments
    encShares := now.encShares
    complaints := now.complaints
    cheaters := now.cheaters
    ticks := now.ticks }

/-- `memcpy(peers, &pcheckpoints, ...)`, tests/tp-dkg.c:222, for one peer. -/
def PeerState.back (now checkpoint : PeerState) : PeerState :=
  { checkpoint with
    lastTs := now.lastTs
    sigPks := now.sigPks
    noisePks := now.noisePks
    outs := now.outs
    ins := now.ins
    commitments := now.commitments
    shares := now.shares
    xshares := now.xshares
    complaints := now.complaints
    mine := now.mine
    ticks := now.ticks }

namespace Driver

/-- The library: `tpdkg_tp_next`, `tpdkg_peer_next` for every peer, and the content of local buffers. -/
structure Build where
  tpNext : TP → (input out : Bytes) → C (Int × TP × Bytes)
  peerNext : ℕ → PeerState → (input out : Bytes) → C (Int × PeerState × Bytes)
  junk : ℕ → UInt8
  pjunk : ℕ → ℕ → UInt8

/-- Buffers of `len` bytes that are not initialised. -/
def Build.buf (B : Build) (len : ℕ) : Bytes := (List.range len).map B.junk
def Build.pbuf (B : Build) (i len : ℕ) : Bytes := (List.range len).map (B.pjunk i)

/-- The library as it is built for use. -/
def production [Signing] [Hashes] [NoiseCrypto] [Mac] (G : Type) [Ristretto G] (tpEnv : PEnv) (env : ℕ → PEnv) : Build where
  tpNext := Verif.TpDkg.tpNext G tpEnv.clock tpEnv.log tpEnv.scratch
  peerNext i := Verif.TpDkg.peerNext G (env i).clock (env i).log (env i).mlock (env i).scratch (env i).rnd
  junk := tpEnv.junk
  pjunk i := (env i).junk

namespace Build

variable (B : Build)

/-- The loop over the peers, tests/tp-dkg.c:169-194 and 512-549. -/
def pass : (i : ℕ) → List PeerState → List Chan → Chan → C (Int × List PeerState × List Chan × Chan)
  | i, p :: ps, c :: cs, net => do
    let (input, c) ← recv c (B.pbuf i (peerInputSize p))
    let (r, p, out) ← B.peerNext i p input (B.pbuf i (peerOutputSize p))
    if r ≠ 0 then .ok (r, p :: ps, c :: cs, net)
    else do
      let net ← send net out
      let (r, ps, cs, net) ← pass (i + 1) ps cs net
      .ok (r, p :: ps, c :: cs, net)
  | _, ps, cs, net => .ok (0, ps, cs, net)

/-- The inner loop, tests/tp-dkg.c:168-195 and 511-550. -/
def inner : ℕ → Vars → C (Int × Vars)
  | 0, _ => .ub .diverge
  | k + 1, v =>
    if v.net.len ≠ 0 then .ok (0, v)
    else do
      let p ← ld v.peers 1
      if peerNotDone p = false then .ok (0, v)
      else do
        let (r, peers, nets, net) ← B.pass 0 v.peers v.nets v.net
        if r ≠ 0 then do
          let peers ← freeAll peers
          .ok (r, { v with peers, nets, net })
        else inner k { v with peers, nets, net }

/-- The rest of the protocol after a test case, tests/tp-dkg.c:158-218. `out` is the variable `tp_out` of line 144. The
variable of the same name in line 199 hides it only until the end of the pass. -/
def rest (out : Bytes) : ℕ → Vars → C Outcome
  | 0, _ => .ub .diverge
  | k + 1, v =>
    if tpNotDone v.tp = false then .ok (.over v)
    else do
      match ← sendAll v.tp out v.tp.n.toNat 0 v.nets with
      | none => .ok (.returns 1)
      | some nets =>
        let (r, v) ← B.inner (k + 1) { v with nets }
        if r ≠ 0 then .ok (.returns r)
        else do
          let size ← tpInputSize v.tp
          let (input, net) ← recv v.net (B.buf size)
          let (r, tp, _) ← B.tpNext v.tp input (B.buf (tpOutputSize v.tp))
          if r ≠ 0 then do
            let _ ← freeAll v.peers
            .ok (.returns (if tp.cheaterLen > 0 then 55 else r))
          else rest out k { v with tp, net }

/-- The loop over the test cases, tests/tp-dkg.c:137-223; `tp0` and `ps0` are the copies of lines 126-129. -/
def cases (k : ℕ) (tp0 : TP) (ps0 : List PeerState) : List Bytes → Vars → C Outcome
  | [], v => .ok (.over v)
  | b :: bs, v =>
    if b.length < 111 then cases k tp0 ps0 bs v
    else do
      let (r, tp, out) ← B.tpNext v.tp b (B.buf (tpOutputSize v.tp))
      if r ≠ 0 then do
        let _ ← freeAll v.peers
        .ok (.returns (if tp.cheaterLen > 0 then 125 else r))
      else do
        match ← B.rest out k { v with tp } with
        | .returns r => .ok (.returns r)
        | .over v => cases k tp0 ps0 bs { v with tp := v.tp.back tp0, peers := List.zipWith PeerState.back v.peers ps0 }

/-- `fuzz_loop`, tests/tp-dkg.c:123-225; `over` is the return value 0. -/
def fuzz (k step : ℕ) (l : List Bytes) (v : Vars) : C Outcome :=
  if v.tp.step ≠ step then .ok (.over v) else B.cases k v.tp v.peers l v

/-- The main loop, tests/tp-dkg.c:467-551, with the call of `fuzz_loop` in line 484. `l` are the test cases. -/
def loop (step : ℕ) (l : List Bytes) : ℕ → Vars → C Outcome
  | 0, _ => .ub .diverge
  | k + 1, v =>
    if tpNotDone v.tp = false then .ok (.over v)
    else do
      let size ← tpInputSize v.tp
      let (input, net) ← recv v.net (B.buf size)
      let outSize := tpOutputSize v.tp
      match ← B.fuzz (k + 1) step l { v with net } with
      | .returns r => .ok (.returns r)
      | .over v =>
        let (r, tp, out) ← B.tpNext v.tp input (B.buf outSize)
        if r ≠ 0 then do
          let peers ← freeAll v.peers
          if tp.cheaterLen > 0 then .ok (.over { v with tp, peers }) else .ok (.returns r)
        else do
          match ← sendAll tp out tp.n.toNat 0 v.nets with
          | none => .ok (.returns 1)
          | some nets =>
            let (r, v) ← B.inner (k + 1) { v with tp, nets }
            if r ≠ 0 then .ok (.returns r) else loop step l k v

/-! ## The variant for peers, tests/tp-dkg.c:227-353 -/

/-- The inner loop, tests/tp-dkg.c:287-314. Unlike in `inner` the peers are not released after an error. -/
def innerP : ℕ → Vars → C (Int × Vars)
  | 0, _ => .ub .diverge
  | k + 1, v =>
    if v.net.len ≠ 0 then .ok (0, v)
    else do
      let p ← ld v.peers 1
      if peerNotDone p = false then .ok (0, v)
      else do
        let (r, peers, nets, net) ← B.pass 0 v.peers v.nets v.net
        if r ≠ 0 then .ok (r, { v with peers, nets, net }) else innerP k { v with peers, nets, net }

/-- The rest of the protocol after a test case for a peer, tests/tp-dkg.c:286-346. -/
def restP : ℕ → Vars → C Outcome
  | 0, _ => .ub .diverge
  | k + 1, v =>
    if tpNotDone v.tp = false then .ok (.over v)
    else do
      let (r, v) ← B.innerP (k + 1) v
      if r ≠ 0 then .ok (.returns r)
      else do
        let size ← tpInputSize v.tp
        let (input, net) ← recv v.net (B.buf size)
        let (r, tp, out) ← B.tpNext v.tp input (B.buf (tpOutputSize v.tp))
        if r ≠ 0 then do
          let _ ← freeAll v.peers
          .ok (.returns (if tp.cheaterLen > 0 then 55 else r))
        else do
          match ← sendAll tp out tp.n.toNat 0 v.nets with
          | none => .ok (.returns 1)
          | some nets => restP k { v with tp, net, nets }

/-- The loop over the test cases, tests/tp-dkg.c:242-351: the first peer gets the case, the others what the trusted party sent. -/
def casesP (k : ℕ) (tp0 : TP) (ps0 : List PeerState) : List Bytes → Vars → C Outcome
  | [], v => .ok (.over v)
  | b :: bs, v =>
    if b.length < 111 then casesP k tp0 ps0 bs v
    else
      match v.peers, v.nets with
      | p :: ps, c :: cs => do
        let (r, p, out) ← B.peerNext 0 p b (B.pbuf 0 (peerOutputSize p))
        if r ≠ 0 then .ok (.returns r)
        else do
          let net ← send v.net out
          let (r, ps, cs, net) ← B.pass 1 ps cs net
          if r ≠ 0 then .ok (.returns r)
          else do
            match ← B.restP k { v with peers := p :: ps, nets := c :: cs, net } with
            | .returns r => .ok (.returns r)
            | .over v =>
              casesP k tp0 ps0 bs { v with tp := v.tp.back tp0, peers := List.zipWith PeerState.back v.peers ps0 }
      | _, _ => .ub .oob

/-- `fuzz_loop` of the build with `FUZZ_PEER`, tests/tp-dkg.c:227-353. -/
def fuzzP (k step : ℕ) (l : List Bytes) (v : Vars) : C Outcome := do
  let p ← ld v.peers 0
  if p.step ≠ step then .ok (.over v) else B.casesP k v.tp v.peers l v

/-- The loop over the peers with the call of `fuzz_loop` in line 528, tests/tp-dkg.c:512-549: `m` passes are left, the next one
is pass `i`. -/
def passes (k step : ℕ) (l : List Bytes) : (m i : ℕ) → Vars → C Outcome
  | 0, _, v => .ok (.over v)
  | m + 1, i, v => do
    let p ← ld v.peers i
    let c ← ld v.nets i
    let (input, c) ← recv c (B.pbuf i (peerInputSize p))
    let nets ← st v.nets i c
    let outSize := peerOutputSize p
    match ← B.fuzzP k step l { v with nets } with
    | .returns r => .ok (.returns r)
    | .over v => do
      let p ← ld v.peers i
      let (r, p, out) ← B.peerNext i p input (B.pbuf i outSize)
      let peers ← st v.peers i p
      if r ≠ 0 then do
        let _ ← freeAll peers
        .ok (.returns r)
      else do
        let net ← send v.net out
        passes k step l m (i + 1) { v with peers, net }

/-- The inner loop of `main` with `FUZZ_PEER`, tests/tp-dkg.c:511-550. -/
def innerF (step : ℕ) (l : List Bytes) : ℕ → Vars → C Outcome
  | 0, _ => .ub .diverge
  | k + 1, v =>
    if v.net.len ≠ 0 then .ok (.over v)
    else do
      let p ← ld v.peers 1
      if peerNotDone p = false then .ok (.over v)
      else do
        match ← B.passes (k + 1) step l v.peers.length 0 v with
        | .returns r => .ok (.returns r)
        | .over v => innerF step l k v

/-- The main loop with `FUZZ_PEER`, tests/tp-dkg.c:467-551. -/
def loopP (step : ℕ) (l : List Bytes) : ℕ → Vars → C Outcome
  | 0, _ => .ub .diverge
  | k + 1, v =>
    if tpNotDone v.tp = false then .ok (.over v)
    else do
      let size ← tpInputSize v.tp
      let (input, net) ← recv v.net (B.buf size)
      let (r, tp, out) ← B.tpNext v.tp input (B.buf (tpOutputSize v.tp))
      if r ≠ 0 then do
        let peers ← freeAll v.peers
        if tp.cheaterLen > 0 then .ok (.over { v with tp, peers, net }) else .ok (.returns r)
      else do
        match ← sendAll tp out tp.n.toNat 0 v.nets with
        | none => .ok (.returns 1)
        | some nets => do
          match ← B.innerF step l (k + 1) { v with tp, nets, net } with
          | .returns r => .ok (.returns r)
          | .over v => loopP step l k v

end Build

end Driver

end Verif.TpDkg
