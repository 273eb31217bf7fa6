import Verif.Model.Dkg

/-!
# What the functions leave on the stack, src/oprf.c, src/toprf.c, src/dkg.c

The models of these functions leave out local buffers. Here the same functions run on a stack of named buffers with
`sodium_mlock` and `sodium_munlock`. Every call of `sodium_mlock` has an outcome of its own. The stack starts with
arbitrary contents, and nothing overwrites it after the return. Buffers that hold no secret (`dst_prime`, `z_pad`, `size`),
the blocks of `expand_message_xmd` after `b_0` (hashes of it), the hash states of `expand_message_xmd` and the variable `tmp`
of `toprf_create_shares` are left out. The hash state of `oprf_Finalize` is represented by the bytes hashed so far.
-/

namespace Verif.Residue

open Ristretto

/-- Local variables -/
inductive Var
  /-- `state` in `oprf_Finalize` -/
  | hash
  /-- `msg_prime` and `b_0` in `expand_message_xmd` -/
  | msgPrime | b0
  /-- `uniform_bytes` in `voprf_hash_to_group` -/
  | uniform
  /-- `H0` in `oprf_Blind` -/
  | h0
  /-- `ir` in `oprf_Unblind` -/
  | ir
  /-- `kl` in `toprf_Evaluate` -/
  | kl
  /-- `a` in `toprf_create_shares` -/
  | poly
  /-- `a` in `dkg_start` -/
  | coeffs
  /-- `tmp` in `polynom` -/
  | term
  deriving DecidableEq, Repr

/-- A buffer: contents, and is it locked in memory? -/
structure Cell where
  bytes : Bytes
  locked : Bool
  deriving DecidableEq

abbrev Stack := Var → Cell

abbrev M := StateT Stack C

/-- Write to a buffer. -/
def put (v : Var) (b : Bytes) : M Unit := fun m => .ok ((), fun w => if w = v then { m v with bytes := b } else m w)

/-- `sodium_mlock`, which succeeds if `ok` -/
def mlock (v : Var) (ok : Bool) : M Int := fun m =>
  if ok then .ok (0, fun w => if w = v then { m v with locked := true } else m w) else .ok (-1, m)

/-- `sodium_munlock`: zeros first, then unlocks. -/
def munlock (v : Var) : M Unit := fun m =>
  .ok ((), fun w => if w = v then ⟨List.replicate (m v).bytes.length 0, false⟩ else m w)

/-- Calls that have no buffers of their own -/
def lift {α : Type} (x : C α) : M α := fun m => do
  let a ← x
  .ok (a, m)

variable (G : Type) [Ristretto G] [Hashes]

/-- `oprf_Finalize`, oprf.c:70-104 -/
def finalize (l : Bool) (x : Bytes) (xLen : UInt16) (N : B32) (out0 : B64) : M (Int × B64) := do
  if (← mlock .hash l) = -1 then return (-1, out0)
  put .hash []
  put .hash (beBytes 2 xLen.toNat)
  let xs ← lift (rd x 0 xLen.toNat)
  put .hash (beBytes 2 xLen.toNat ++ xs)
  put .hash (beBytes 2 xLen.toNat ++ xs ++ beBytes 2 32)
  put .hash (beBytes 2 xLen.toNat ++ xs ++ beBytes 2 32 ++ N.toList)
  put .hash (beBytes 2 xLen.toNat ++ xs ++ beBytes 2 32 ++ N.toList ++ Oprf.finalizeDst)
  let y := Hashes.sha512 (beBytes 2 xLen.toNat ++ xs ++ beBytes 2 32 ++ N.toList ++ Oprf.finalizeDst)
  munlock .hash
  return (0, y)

/-- `expand_message_xmd`, oprf.c:157-243, called with the buffer `uniform_bytes` of `voprf_hash_to_group` as `out` -/
def expandMessageXmd (msg : Bytes) (msgLen : UInt8) (dst : Bytes) (dstLen : UInt8) (len : UInt8) : M Int := fun m => do
  let (ret, out) ← Oprf.expandMessageXmd msg msgLen dst dstLen len (m .uniform).bytes
  let k : M Int := do
    if ret = 0 then
      let d ← lift (rd dst 0 dstLen.toNat)
      let x ← lift (rd msg 0 msgLen.toNat)
      let p := List.replicate 128 0 ++ x ++ beBytes 2 len.toNat ++ [0] ++ (d ++ [dstLen])
      put .msgPrime p
      put .b0 (Hashes.sha512 p).toList
    put .uniform out
    return ret
  k m

/-- `voprf_hash_to_group`, oprf.c:253-273 -/
def hashToGroup (l : Bool) (msg : Bytes) (msgLen : UInt8) (p0 : B32) : M (Int × B32) := do
  put .uniform (List.replicate 64 0)
  if (← mlock .uniform l) ≠ 0 then return (-1, p0)
  if (← expandMessageXmd msg msgLen Oprf.hashToGroupDst (UInt8.ofNat Oprf.hashToGroupDst.length) 64) ≠ 0 then
    munlock .uniform
    return (-1, p0)
  let m ← get
  let p := fromHashBytes G (Oprf.toB64 (m .uniform).bytes)
  munlock .uniform
  return (0, p)

/-- `oprf_Blind`, oprf.c:289-328; `l1` and `l2` are the outcomes of the two calls of `sodium_mlock`. -/
def blind (l1 l2 : Bool) (x : Bytes) (xLen : UInt8) (rnd r0 blinded0 : B32) : M (Int × B32 × B32) := do
  if (← mlock .h0 l1) ≠ 0 then return (-1, r0, blinded0)
  let m ← get
  let (ret, h0) ← hashToGroup G l2 x xLen (toB32 (m .h0).bytes)
  if ret ≠ 0 then return (-1, r0, blinded0)
  put .h0 h0.toList
  let (ret, blinded) := scalarmult G blinded0 rnd h0
  if ret ≠ 0 then
    munlock .h0
    return (-1, rnd, blinded)
  munlock .h0
  return (0, rnd, blinded)

/-- `oprf_Unblind`, oprf.c:363-398 -/
def unblind (l : Bool) (r Z N0 : B32) : M (Int × B32) := do
  if isValidPoint G Z ≠ 1 then return (-1, N0)
  if (← mlock .ir l) = -1 then return (-1, N0)
  let (ret, ir) := scalarInvert r
  put .ir ir.toList
  if ret ≠ 0 then
    munlock .ir
    return (-1, N0)
  let (ret, N) := scalarmult G N0 ir Z
  if ret ≠ 0 then
    munlock .ir
    return (-1, N)
  munlock .ir
  return (0, N)

/-- `toprf_Evaluate`, toprf.c:160-176 -/
def evaluate (k : Share) (blinded : B32) (self : UInt8) (indexes : List UInt8) (Z0 : Share) : M (Int × Share) := do
  let lpoly := Toprf.coeff self indexes
  let kl := scalarMul k.value lpoly
  put .kl kl.toList
  let (ret, v) := Oprf.evaluate G kl blinded Z0.value
  if ret ≠ 0 then return (1, { Z0 with value := v })
  return (0, { Z0 with value := v })

/-- `toprf_create_shares`, toprf.c:81-108 -/
def createShares (secret : B32) (n threshold : UInt8) (rnd : ℕ → B32) (out : List Share) : M (List Share) := do
  if threshold.toNat ≤ 1 then lift (.ub .vla)
  else do
    let a := (List.range (threshold.toNat - 1)).map rnd
    put .poly (a.flatMap (·.toList))
    lift (forLeU8 (Toprf.shareStep secret a) n 257 1 out)

/-- One iteration of the loop over `j` of `dkg_start`, dkg.c:85-88, with the content of `tmp` of `polynom` after its last
assignment, dkg.c:55. For a threshold of 1 there is no assignment. -/
def shareStep (a : List B32) (j : UInt8) (s : List Share × Bytes) : C (List Share × Bytes) := do
  let shares ← Dkg.shareStep a j s.1
  match a.drop 1 |>.getLast? with
  | none => .ok (shares, s.2)
  | some last => .ok (shares, (scalarMul last (Dkg.powLoop (B32.ofByte j) (a.length - 1) (B32.ofByte 1))).toList)

/-- `dkg_start`, dkg.c:61-93 -/
def start (l : Bool) (n threshold : UInt8) (rnd : ℕ → B32) (commitments : List B32) (shares : List Share) :
    M (Int × List B32 × List Share) := do
  if threshold.toNat = 0 then lift (.ub .vla)
  else do
    if (← mlock .coeffs l) ≠ 0 then return (-1, commitments, shares)
    let a := (List.range threshold.toNat).map rnd
    put .coeffs (a.flatMap (·.toList))
    let commitments ← lift (Dkg.commitLoop G rnd threshold.toNat 0 commitments)
    let m ← get
    let (shares, tmp) ← lift (forLeU8 (shareStep a) n 257 1 (shares, (m .term).bytes))
    put .term tmp
    munlock .coeffs
    return (0, commitments, shares)

end Verif.Residue
