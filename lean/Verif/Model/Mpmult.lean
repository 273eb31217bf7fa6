import Verif.Model.Toprf

/-!
# Model of `/repo/src/mpmult.c`

Matrices of scalars are functions on `Fin n × Fin n`: all subscripts in this file are loop counters below `n` or
elements of `index`, which only ever holds values below `n`, so every access is within bounds by construction. The size
`n` is at most 255; the 8-bit loop counters `i<n` do not wrap. A size of 0 is undefined (arrays of size 0) and handled in
`mulFinish`. The stack space for the arrays (`3*32*n*n` bytes) is not modelled.
-/

namespace Verif.Mpmult

/-- `uint8_t a[n][n][32]` -/
abbrev Mat (n : ℕ) := Fin n → Fin n → B32

variable {n : ℕ}

/-- `a[r][c] = v` -/
def setM (a : Mat n) (r c : Fin n) (v : B32) : Mat n := Function.update a r (Function.update (a r) c v)

/-- The loop of `cmp` over the bytes, most significant byte first, mpmult.c:19-23. -/
def cmpLoop : List (UInt8 × UInt8) → Int
  | [] => 0
  | (a, b) :: l => if a > b then 1 else if a < b then -1 else cmpLoop l

/-- `cmp`, mpmult.c:17-24. -/
def cmp (a b : B32) : Int := cmpLoop (a.toList.zip b.toList).reverse

/-- `r255div`, mpmult.c:26-32. -/
def r255div (a b : B32) : B32 := scalarMul a (scalarInvert b).2

/-- The maximum of a row, mpmult.c:43-48. -/
def rowMax (row : Fin n → B32) : B32 :=
  (List.finRange n).foldl (fun c1 j => if cmp (row j) c1 > 0 then row j else c1) zero32

/-- The loop over `i` that selects the pivot, mpmult.c:54-65; the pair is (`pi1`, `k`). -/
def pivot (a : Mat n) (c : Fin n → B32) (index : Fin n → Fin n) (j k : Fin n) : B32 × Fin n :=
  ((List.finRange n).filter (j ≤ ·)).foldl (fun s i =>
    let pi0 := r255div (a (index i) j) (c (index i))
    if cmp pi0 s.1 > 0 then (pi0, i) else s) (zero32, k)

/-- Exchange of `index[j]` and `index[k]`, mpmult.c:68-70. -/
def swapIndex (index : Fin n → Fin n) (j k : Fin n) : Fin n → Fin n :=
  Function.update (Function.update index j (index k)) k (index j)

/-- Elimination in row `r = index[i]` with the pivot row `q = index[j]`, mpmult.c:73-84. -/
def elimRow (j q : Fin n) (a : Mat n) (r : Fin n) : Mat n :=
  let pj := r255div (a r j) (a q j)
  ((List.finRange n).filter (j < ·)).foldl (fun a l => setM a r l (scalarSub (a r l) (scalarMul pj (a q l))))
    (setM a r j pj)

/-- State of `gaussian`: the matrix, `index` and the variable `k`, which keeps its value from column to column. -/
structure GState (n : ℕ) where
  a : Mat n
  index : Fin n → Fin n
  k : Fin n

/-- One iteration of the loop over the columns `j`, mpmult.c:53-86. -/
def gaussStep (c : Fin n → B32) (s : GState n) (j : Fin n) : GState n :=
  let k := (pivot s.a c s.index j s.k).2
  let index := swapIndex s.index j k
  let a := ((List.finRange n).filter (j < ·)).foldl (fun a i => elimRow j (index j) a (index i)) s.a
  ⟨a, index, k⟩

/-- `gaussian`, mpmult.c:34-87. -/
def gaussian [NeZero n] (a : Mat n) : GState n :=
  let c := fun i => rowMax (a i)
  ((List.finRange n).filter (fun j => j.1 < n - 1)).foldl (gaussStep c) ⟨a, fun i => i, 0⟩

/-- The forward substitution on `b`, mpmult.c:102-111. -/
def forward (a : Mat n) (index : Fin n → Fin n) (b : Mat n) : Mat n :=
  ((List.finRange n).filter (fun i => i.1 < n - 1)).foldl (fun b i =>
    ((List.finRange n).filter (i < ·)).foldl (fun b j =>
      (List.finRange n).foldl (fun b k =>
        setM b (index j) k (scalarSub (b (index j) k) (scalarMul (a (index j) i) (b (index i) k)))) b) b) b

/-- One iteration of the loop over `j` of the backward substitution, mpmult.c:119-127. -/
def backStep (a : Mat n) (index : Fin n → Fin n) (b : Mat n) (i : Fin n) (x : Mat n) (j : Fin n) : Mat n :=
  let x := setM x j i (b (index j) i)
  let x := ((List.finRange n).filter (j < ·)).foldl (fun x k =>
    setM x j i (scalarSub (x j i) (scalarMul (a (index j) k) (x k i)))) x
  setM x j i (scalarMul (x j i) (scalarInvert (a (index j) j)).2)

/-- The backward substitution, mpmult.c:113-129. -/
def backward [NeZero n] (a : Mat n) (index : Fin n → Fin n) (b x : Mat n) : Mat n :=
  let last : Fin n := Fin.ofNat n (n - 1)
  (List.finRange n).foldl (fun x i =>
    let x := setM x last i (scalarMul (b (index last) i) (scalarInvert (a (index last) last)).2)
    ((List.finRange n).filter (fun j => j.1 < n - 1)).reverse.foldl (backStep a index b i) x) x

/-- `invert`, mpmult.c:89-130. `x0` is the previous content of the output. -/
def invert [NeZero n] (a x0 : Mat n) : Mat n :=
  let b : Mat n := fun i j => if i = j then B32.ofByte 1 else zero32
  let s := gaussian a
  backward s.a s.index (forward s.a s.index b) x0

/-- `genVDMmatrix`, mpmult.c:132-145: entry `j` of row `i` is 1 multiplied `j` times with the index. -/
def genVDM (indexes : Fin n → UInt8) : Mat n := fun i j =>
  (List.range j.1).foldl (fun m _ => scalarMul m (B32.ofByte (indexes i))) (B32.ofByte 1)

/-- `invertedVDMmatrix`, mpmult.c:147-153. -/
def invertedVDM [NeZero n] (indexes : Fin n → UInt8) (x0 : Mat n) : Mat n := invert (genVDM indexes) x0

/-- `toprf_mpc_mul_start`, mpmult.c:155-173. `out` is the caller's buffer of shares. -/
def mulStart (a b : Share) (peers threshold : UInt8) (rnd : ℕ → B32) (out : List Share) : C (Int × List Share) :=
  if a.index ≠ b.index ∨ peers < threshold ∨ threshold = 0 then .ok (1, out)
  else do
    let shares ← Toprf.createShares (scalarMul a.value b.value) peers threshold rnd out
    .ok (0, shares)

/-- `toprf_mpc_mul_finish`, mpmult.c:175-200. The pairs are the sender's index `indexes[i]` and the share it sent;
`scratch` is the indeterminate content of `inverted`. -/
def mulFinish (scratch : B32) (received : List (UInt8 × Share)) (peer : UInt8) : C Share :=
  if h : received.length = 0 then .ub .vla
  else
    haveI : NeZero received.length := ⟨h⟩
    let inverted := invertedVDM (fun i : Fin received.length => (received.get i).1) (fun _ _ => scratch)
    .ok ⟨peer, (List.finRange received.length).foldl
      (fun v i => scalarAdd v (scalarMul (received.get i).2.value (inverted 0 i))) zero32⟩

end Verif.Mpmult
