import Verif.Model.Dkg

/-!
# Model of the test build of the key generation with errors, `/repo/src/tp-dkg.c` under `UNITTEST_CORRUPT`

The build `tp-dkg-corrupt` of `/repo/src/tests/makefile:36-37` replaces two pieces of the peer: lines 1045-1055 alter shares before
they are encrypted, and lines 1148-1161 add complaints. All peers run in one process and are called in the order of their
indices, so that they share the two static counters. Encryption and messages between the two pieces are left out: peer `j`
receives what dealer `i` encrypts for `j` (C46). The counters are natural numbers; they do not overflow.
-/

namespace Verif.Corrupt

open Ristretto

/-- `corrupted_share[2]^=0xff`, tp-dkg.c:1052: the second byte of the value. -/
def flip (s : Share) : Share := { s with value := s.value.set 1 (s.value[1] ^^^ 0xff) }

/-- The loop of `peer_step11_handler` over the shares as far as it concerns them, tp-dkg.c:1045-1055, from position `i` on, with
the counter `corrupted_shares`. The results are the shares to be encrypted and the counter. -/
def corruptRow (t index : UInt8) : (i : ℕ) → List Share → (cnt : ℕ) → List Share × ℕ
  | _, [], cnt => ([], cnt)
  | i, s :: l, cnt =>
    if i + 1 ≠ index.toNat then
      let r := corruptRow t index (i + 1) l (cnt + 1)
      (if (cnt : ℤ) < (t.toNat : ℤ) - 1 then flip s :: r.1 else s :: r.1, r.2)
    else
      let r := corruptRow t index (i + 1) l cnt
      (s :: r.1, r.2)

/-- All dealers, from `index` on. -/
def corruptAll (t : UInt8) : (index : UInt8) → List (List Share) → (cnt : ℕ) → List (List Share)
  | _, [], _ => []
  | index, row :: l, cnt =>
    let r := corruptRow t index 0 row cnt
    r.1 :: corruptAll t (index + 1) l r.2

/-- The search for `i` among `k` entries from `j` on, tp-dkg.c:1153-1155. -/
def known (fails : List UInt8) (i : UInt8) : (k j : ℕ) → C Bool
  | 0, _ => .ok false
  | k + 1, j => do
    let x ← ld fails j
    if x = i then .ok true else known fails i k (j + 1)

/-- The loop that adds complaints, tp-dkg.c:1150-1160, with the counter `totalfails`; `fuel` bounds the 8-bit counter. -/
def addFails (n t index : UInt8) : (fuel : ℕ) → (i : UInt8) → (fails : List UInt8) → (len : UInt8) → (total : ℕ) →
    C (List UInt8 × UInt8 × ℕ)
  | 0, _, _, _, _ => .ub .diverge
  | fuel + 1, i, fails, len, total =>
    if i ≤ n then
      if (total : ℤ) < (t.toNat : ℤ) - index.toNat ∧ (len.toNat : ℤ) < (t.toNat : ℤ) - 1 ∧ i ≠ index then do
        let dup ← known fails i len.toNat 0
        if dup then addFails n t index fuel (i + 1) fails len total
        else do
          let fails ← st fails len.toNat i
          addFails n t index fuel (i + 1) fails (len + 1) (total + 1)
      else addFails n t index fuel (i + 1) fails len total
    else .ok (fails, len, total)

variable (G : Type) [Ristretto G]

/-- The complaints of the peers from `index` on, tp-dkg.c:1142-1161; `xs` are the shares that each has received. -/
def complain (scratch : B32) (n t : UInt8) (cs : List (List B32)) : (index : UInt8) → (xs : List (List Share)) → (total : ℕ) →
    C (List (List UInt8))
  | _, [], _ => .ok []
  | index, x :: xs, total => do
    let v ← Dkg.verifyCommitments G scratch n t index cs x (List.replicate n.toNat 0)
    let f ← addFails n t index 257 1 v.2.1 v.2.2 total
    let r ← complain scratch n t cs (index + 1) xs f.2.2
    .ok (f.1.take f.2.1.toNat :: r)

/-- Column `j` of the shares: what peer `j` receives. -/
def column (rows : List (List Share)) (j : ℕ) : List Share := rows.map fun r => r.getD j ⟨0, zero32⟩

end Verif.Corrupt
