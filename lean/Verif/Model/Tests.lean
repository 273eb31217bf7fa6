import Verif.Model.Mpmult
import Verif.Model.Dkg

/-!
# Model of the test programs `/repo/src/tests/toprf.c`, `mpmult.c` and `dkg.c`

The programs run on values that libsodium draws; these are parameters. Debug output is left out. A local array that is not
initialised has the parameters `junk` and `scratch` as contents. `sodium_mlock` succeeds.
-/

namespace Verif.Tests

open Ristretto Mpmult

/-- How a test program ends: with 0, with an error code because a call failed, or with an error code and the message that
two values which should be equal are not. -/
inductive Exit
  | success
  | error
  | mismatch
  deriving DecidableEq

variable (G : Type) [Ristretto G] [Hashes]

/-! ## toprf.c -/

/-- `"password"`, tests/toprf.c:18. -/
def password : Bytes := [112, 97, 115, 115, 119, 111, 114, 100]

/-- The loop over the shares, tests/toprf.c:28-32; `none` is the `return 1`. -/
def evaluateAll (scratch alpha : B32) : List Share → Option (List Share)
  | [] => some []
  | s :: l =>
    let z := Oprf.evaluate G s.value alpha scratch
    if z.1 ≠ 0 then none else (evaluateAll scratch alpha l).map (⟨s.index, z.2⟩ :: ·)

/-- The loop over the indexes, tests/toprf.c:72-81. -/
def weightedAll (alpha : B32) (shares parts : List Share) (indexes : List UInt8) : List UInt8 → C (Option (List Share))
  | [] => .ok (some [])
  | i :: l => do
    let s ← ld shares (i.toNat - 1)
    let p ← ld parts (indexes.length - (l.length + 1))
    let z := Toprf.evaluate G s alpha i indexes ⟨i, p.value⟩
    if z.1 ≠ 0 then .ok none
    else do
      let r ← weightedAll alpha shares parts indexes l
      .ok (r.map (z.2 :: ·))

/-- `oprf_Unblind` and `oprf_Finalize`, tests/toprf.c:48-52, 57-59 and 92-93; `none` is the `return 1`. -/
def output (scratch : B32) (junk64 : B64) (r beta : B32) : C (Option B64) :=
  let n := Oprf.unblind G true r beta scratch
  if n.1 ≠ 0 then .ok none
  else do
    let y ← Oprf.finalize true password 8 n.2 junk64
    if y.1 ≠ 0 then .ok none else .ok (some y.2)

/-- The second half, tests/toprf.c:70-98. -/
def toprfWeighted (scratch : B32) (junk64 : B64) (r alpha beta : B32) (shares parts : List Share) (oprf0 : B64) :
    C Exit := do
  let resp ← weightedAll G alpha shares parts [3, 1] [3, 1]
  match resp with
  | none => .ok .error
  | some resp => do
    let c ← Toprf.thresholdcombine G resp beta
    if c.1 ≠ 0 then .ok .mismatch
    else do
      let y ← output G scratch junk64 r c.2
      match y with
      | none => .ok .error
      | some y => if y ≠ oprf0 then .ok .mismatch else .ok .success

/-- `main` of tests/toprf.c:7-101: `k`, the coefficient `a` and the blinding scalar `rnd` are drawn. -/
def toprf (junk : UInt8) (scratch : B32) (junk64 : B64) (k : B32) (a : ℕ → B32) (rnd : B32) : C Exit := do
  let shares ← Toprf.createShares k 3 2 a (List.replicate 3 ⟨junk, scratch⟩)
  let b ← Oprf.blind G true scratch password 8 rnd scratch scratch
  if b.1 ≠ 0 then .ok .error
  else
    match evaluateAll G scratch b.2.2 shares with
    | none => .ok .error
    | some xresps => do
      let x2 ← ld xresps 2
      let x0 ← ld xresps 0
      let beta ← Toprf.thresholdmult G junk scratch [x2, x0]
      if beta.1 ≠ 0 then .ok .error
      else do
        let y ← output G scratch junk64 b.2.1 beta.2
        match y with
        | none => .ok .error
        | some y =>
          let z := scalarmult G beta.2 k b.2.2
          if z.1 ≠ 0 then .ok .error
          else do
            let y0 ← output G scratch junk64 b.2.1 z.2
            match y0 with
            | none => .ok .error
            | some y0 =>
              if y0 ≠ y then .ok .mismatch
              else toprfWeighted G scratch junk64 b.2.1 b.2.2 z.2 shares xresps y0

/-! ## mpmult.c: verification of the degree of a sharing -/

/-- A matrix in memory, row by row. -/
def flat {n : ℕ} [NeZero n] (a : Mat n) : List B32 :=
  (List.range (n * n)).map fun k => a (Fin.ofNat n (k / n)) (Fin.ofNat n (k % n))

/-- `delta_exp[j]`, tests/mpmult.c:112-117. -/
def power (delta : B32) : ℕ → B32
  | 0 => B32.ofByte 1
  | j + 1 => scalarMul (power delta j) delta

/-- The loop over `j`, tests/mpmult.c:124-132, with `c = i-1`: the parameter has the type `inverted[t][t]`, so the rows are
taken to have `t` elements. -/
def weightLoop (inverted : List B32) (delta : B32) (t c : ℕ) : (m j : ℕ) → (acc : B32) → C B32
  | 0, _, acc => .ok acc
  | m + 1, j, acc => do
    let x ← ld inverted (j * t + c)
    weightLoop inverted delta t c m (j + 1) (scalarAdd acc (scalarMul x (power delta j)))

/-- The loop over `i`, tests/mpmult.c:122-139. -/
def vspsLoop (scratch : B32) (A inverted : List B32) (delta : B32) (t : ℕ) : (m c : ℕ) → (v : B32) → C (Int × B32)
  | 0, _, v => .ok (0, v)
  | m + 1, c, v => do
    let d ← weightLoop inverted delta t c (t + 1) 0 zero32
    let a ← ld A c
    let q := scalarmult G scratch d a
    if q.1 ≠ 0 then .ok (1, v)
    else vspsLoop scratch A inverted delta t m (c + 1) (pointAdd G v v q.2).2

/-- `_vsps`, tests/mpmult.c:104-142. -/
def vsps (scratch : B32) (t : ℕ) (A : List B32) (delta : B32) (inverted : List B32) : C (Int × B32) :=
  if t = 0 then .ub .vla else vspsLoop G scratch A inverted delta t (t + 1) 0 zero32

/-- `indexes` for the left-hand side, tests/mpmult.c:145 and 152: element `t` is not written and is `junk`. -/
def leftIndexes (t : ℕ) (junk : UInt8) : Fin (t + 1) → UInt8 := fun i => if i.1 < t then UInt8.ofNat (i.1 + 1) else junk

/-- `indexes` for the right-hand side, tests/mpmult.c:168. -/
def rightIndexes (t : ℕ) : Fin (t + 1) → UInt8 := fun i => UInt8.ofNat (t + (i.1 + 1))

/-- `vsps_check`, tests/mpmult.c:144-179; `delta` is drawn. With `t` 255 the number of indexes is passed as 0. -/
def vspsCheck (junk : UInt8) (scratch : B32) (t : UInt8) (A : List B32) (delta : B32) : C Int :=
  if t = 255 then .ub .vla
  else do
    let inv1 := invertedVDM (leftIndexes t.toNat junk) fun _ _ => scratch
    let v1 ← vsps G scratch t.toNat A delta (flat inv1)
    if v1.1 ≠ 0 then .ok 1
    else do
      let inv2 := invertedVDM (rightIndexes t.toNat) inv1
      let v2 ← vsps G scratch t.toNat (A.drop (t.toNat + 1)) delta (flat inv2)
      if v2.1 ≠ 0 then .ok 1
      else if v1.2 ≠ v2.2 then .ok 1 else .ok 0

/-- The commitments, tests/mpmult.c:212-227; `none` is the `return -1`. -/
def commitAll (h : B32) : List (Share × Share) → Option (List B32)
  | [] => some []
  | (f, r) :: l =>
    let A := (scalarmultBase G f.value).2
    let tmp := scalarmult G zero32 r.value h
    if tmp.1 ≠ 0 then none else (commitAll h l).map ((pointAdd G A A tmp.2).2 :: ·)

/-- `"nothing up my sleeve number"` with its final 0, tests/mpmult.c:203. -/
def sleeve : Bytes :=
  [110, 111, 116, 104, 105, 110, 103, 32, 117, 112, 32, 109, 121, 32, 115, 108, 101, 101, 118, 101, 32, 110, 117, 109, 98,
    101, 114, 0]

/-- `test_vsps`, tests/mpmult.c:181-241. -/
def testVsps (junk : UInt8) (scratch : B32) (a r : B32) (fa fr : ℕ → B32) (delta : B32) : C Exit := do
  let F ← Toprf.createShares a 8 4 fa (List.replicate 8 ⟨junk, scratch⟩)
  let R ← Toprf.createShares r 8 4 fr (List.replicate 8 ⟨junk, scratch⟩)
  let h ← Oprf.hashToGroup G true (Hashes.generichash64 sleeve).toList 64 zero32
  if h.1 ≠ 0 then .ok .error
  else
    match commitAll G h.2 (F.zip R) with
    | none => .ok .error
    | some A => do
      let ret ← vspsCheck G junk scratch 3 A delta
      if ret ≠ 0 then .ok .mismatch else .ok .success

/-! ## mpmult.c: multiplication -/

/-- The loop over the dealers, tests/mpmult.c:43-45; `none` is the `return 1`. -/
def dealAll (junk : UInt8) (scratch : B32) (peers threshold : UInt8) :
    List (Share × Share × (ℕ → B32)) → C (Option (List (List Share)))
  | [] => .ok (some [])
  | d :: l => do
    let m ← mulStart d.1 d.2.1 peers threshold d.2.2 (List.replicate peers.toNat ⟨junk, scratch⟩)
    if m.1 ≠ 0 then .ok none
    else do
      let r ← dealAll junk scratch peers threshold l
      .ok (r.map (m.2 :: ·))

/-- The loop over the peers, tests/mpmult.c:53-61: peer `i+1` takes share `i` of every dealer. -/
def finishAll (scratch : B32) (indexes : List UInt8) (deals : List (List Share)) : (m i : ℕ) → C (List Share)
  | 0, _ => .ok []
  | m + 1, i => do
    let shares ← deals.mapM fun d => ld d i
    let s ← mulFinish scratch (indexes.zip shares) (UInt8.ofNat (i + 1))
    let r ← finishAll scratch indexes deals m (i + 1)
    .ok (s :: r)

/-- The loop of reconstructions, tests/mpmult.c:89-100. -/
def reconAll (sharesP : List Share) (k0k1 : B32) (threshold : ℕ) : (m i : ℕ) → C Exit
  | 0, _ => .ok .success
  | m + 1, i => do
    let s ← rd sharesP i threshold
    let v ← Dkg.reconstruct s
    if v ≠ k0k1 then .ok .mismatch else reconAll sharesP k0k1 threshold m (i + 1)

/-- `test_mpmul`, tests/mpmult.c:9-102: `k0`, `k1`, `r` and the coefficients are drawn; `fd i` are those of dealer `i`. -/
def testMpmul (junk : UInt8) (scratch : B32) (k0 k1 r : B32) (f0 f1 : ℕ → B32) (fd : ℕ → ℕ → B32) : C Exit := do
  let shares0 ← Toprf.createShares k0 10 2 f0 (List.replicate 10 ⟨junk, scratch⟩)
  let shares1 ← Toprf.createShares k1 10 2 f1 (List.replicate 10 ⟨junk, scratch⟩)
  let deals ← dealAll junk scratch 10 2 ((List.range 5).map fun i =>
    (shares0.getD i ⟨0, zero32⟩, shares1.getD i ⟨0, zero32⟩, fd i))
  match deals with
  | none => .ok .error
  | some deals => do
    let sharesP ← finishAll scratch [1, 2, 3, 4, 5] deals 10 0
    let k0k1 := scalarMul k0 k1
    let gr := scalarmultBase G r
    let verifier := scalarmult G scratch k0k1 gr.2
    if verifier.1 ≠ 0 then .ok .error
    else do
      let p0 ← ld sharesP 0
      let q0 := scalarmult G scratch p0.value gr.2
      if q0.1 ≠ 0 then .ok .error
      else do
        let p2 ← ld sharesP 2
        let q2 := scalarmult G scratch p2.value gr.2
        if q2.1 ≠ 0 then .ok .error
        else do
          let res ← Toprf.thresholdmult G junk scratch [⟨1, q0.2⟩, ⟨3, q2.2⟩]
          if res.1 ≠ 0 then .ok .error
          else if res.2 ≠ verifier.2 then .ok .mismatch
          else reconAll sharesP k0k1 2 9 0

/-! ## dkg.c -/

/-- The loop over the dealers, tests/dkg.c:79-89; `none` is the `return 1`. -/
def startAll (junk : UInt8) (scratch : B32) : List (ℕ → B32) → C (Option (List (List B32 × List Share)))
  | [] => .ok (some [])
  | rnd :: l => do
    let s ← Dkg.start G true 5 3 rnd (List.replicate 3 scratch) (List.replicate 5 ⟨junk, scratch⟩)
    if s.1 ≠ 0 then .ok none
    else do
      let r ← startAll junk scratch l
      .ok (r.map (s.2 :: ·))

/-- The loop over the receivers, tests/dkg.c:96-123; `none` is the `return 1`. -/
def receiveAll (scratch : B32) (commitments : List (List B32)) (shares : List (List Share)) :
    (m i : ℕ) → C (Option (List Share))
  | 0, _ => .ok (some [])
  | m + 1, i => do
    let sent ← shares.mapM fun d => ld d i
    let v ← Dkg.verifyCommitments G scratch 5 3 (UInt8.ofNat (i + 1)) commitments sent (List.replicate 5 0)
    if v.1 ≠ 0 then .ok none
    else do
      let x ← Dkg.finish 5 sent ⟨UInt8.ofNat (i + 1), scratch⟩
      let r ← receiveAll scratch commitments shares m (i + 1)
      .ok (r.map (x :: ·))

/-- `topart`, tests/dkg.c:13-16. -/
def topart (s : Share) : Share := ⟨s.index, (scalarmultBase G s.value).2⟩

/-- Three shares combined in the exponent, tests/dkg.c:26-30, 50-55 and 58-63. -/
def combine3 (junk : UInt8) (scratch : B32) (shares : List Share) (i j k : ℕ) : C (Int × B32) := do
  let a ← ld shares i
  let b ← ld shares j
  let c ← ld shares k
  Toprf.thresholdmult G junk scratch [topart G a, topart G b, topart G c]

/-- `test_dkg_finish`, tests/dkg.c:43-71. -/
def testFinish (junk : UInt8) (scratch : B32) (shares : List Share) : C Exit := do
  let v0 ← combine3 G junk scratch shares 4 2 0
  if v0.1 ≠ 0 then .ok .error
  else do
    let v1 ← combine3 G junk scratch shares 3 1 0
    if v1.1 ≠ 0 then .ok .error else if v0.2 ≠ v1.2 then .ok .mismatch else .ok .success

/-- `test_dkg_start`, tests/dkg.c:18-41. -/
def testStart (junk : UInt8) (scratch a : B32) (shares : List Share) : C Exit := do
  let v ← combine3 G junk scratch shares 4 2 0
  if v.1 ≠ 0 then .ok .error else if (scalarmultBase G a).2 ≠ v.2 then .ok .mismatch else .ok .success

/-- The checks on the final shares, tests/dkg.c:129-145. -/
def dkgChecks (junk : UInt8) (scratch : B32) (shares : List Share) : C Exit := do
  let r ← testFinish G junk scratch shares
  if r ≠ .success then .ok r
  else do
    let r ← testStart G junk scratch (B32.ofByte 40) shares
    if r ≠ .success then .ok r
    else do
      let s ← rd shares 0 3
      let v ← Dkg.reconstruct s
      if v ≠ B32.ofByte 40 then .ok .mismatch else .ok .success

/-- `main` of tests/dkg.c:73-146; `rnd i` are the scalars that dealer `i` draws. -/
def dkg (junk : UInt8) (scratch : B32) (rnd : ℕ → ℕ → B32) : C Exit := do
  let d ← startAll G junk scratch ((List.range 5).map rnd)
  match d with
  | none => .ok .error
  | some d => do
    let f ← receiveAll G scratch (d.map (·.1)) (d.map (·.2)) 5 0
    match f with
    | none => .ok .error
    | some shares => dkgChecks G junk scratch shares

end Verif.Tests
