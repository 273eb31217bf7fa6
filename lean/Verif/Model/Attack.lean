import Verif.Model.Oprf

/-!
# Model of `/repo/misc/attack.c`

Memory locking succeeds. The text on the error stream is left out; the text that `tamper` and `usage` write to the standard
output is not. Strings are given with their terminating zero.
-/

namespace Verif.Attack

open Ristretto

variable (G : Type) [Ristretto G] [Hashes]

/-- `k`, attack.c:16 -/
def k : B32 := B32.ofByte 1

/-- The characters of a string -/
def chars (s : String) : Bytes := s.toList.map fun c => UInt8.ofNat c.toNat

/-- `puts("tampering")`, attack.c:37 -/
def banner : Bytes := chars "tampering\n"

/-- `tamper`, attack.c:35-44: return value and `beta`. -/
def tamper (alpha beta0 : B32) : Int × B32 :=
  let (ret, beta) := scalarmult G beta0 k alpha
  if ret ≠ 0 then (1, beta) else (0, beta)

/-- `guess`, attack.c:46-65. The length of the password is cut to 8 bits for the first call and to 16 bits for the
second one. -/
def guess (rwd : B64) (pwd : Bytes) (pwdLen : ℕ) (rwd0 : B64) : C Int := do
  let (ret, h) ← Oprf.hashToGroup G true pwd (UInt8.ofNat pwdLen) zero32
  if ret ≠ 0 then .ok 1
  else
    let (ret, rwd') ← Oprf.finalize true pwd (UInt16.ofNat pwdLen) h rwd0
    if ret ≠ 0 then .ok 1
    else if rwd ≠ rwd' then .ok (-1) else .ok 0

/-- `test`, attack.c:67-104, with the scalar `rnd` drawn by `oprf_Blind`: the return value and the two printed results of
`guess`. `password` is an array with its terminating zero. The result of `tamper` is not tested. -/
def test (password : Bytes) (scratch rnd : B32) (rwd0 rwd1 rwd2 : B64) : C (Int × Option (Int × Int)) := do
  let (ret, r, alpha) ← Oprf.blind G true scratch password (UInt8.ofNat password.length) rnd zero32 zero32
  if ret ≠ 0 then .ok (1, none)
  else
    let beta := (tamper G alpha zero32).2
    let (ret, N) := Oprf.unblind G true r beta zero32
    if ret ≠ 0 then .ok (1, none)
    else
      let (ret, rwd) ← Oprf.finalize true password (UInt16.ofNat password.length) N rwd0
      if ret ≠ 0 then .ok (1, none)
      else
        let g1 ← guess G rwd password (password.length - 1) rwd1
        let g2 ← guess G rwd password password.length rwd2
        .ok (0, some (g1, g2))

/-- The password of `test`, attack.c:69 -/
def password : Bytes := chars "Exploitability of this is low, OPRFs are still cool" ++ [0]

/-- `memcmp(p, q, n) == 0`: both objects must have `n` bytes. -/
def sameBytes (p q : Bytes) (n : ℕ) : C Bool := do
  let a ← rd p 0 n
  let b ← rd q 0 n
  .ok (a = b)

/-- `main`, attack.c:106-139: exit status and standard output. `args` are the arguments after the name of the program,
`usage` is the text of `usage`, and `beta0`, `rwd0`, `scratch`, `rnd` are contents of local variables and random data. -/
def main (args : List Bytes) (stdin usage : Bytes) (beta0 scratch rnd : B32) (rwd0 : B64) : C (Int × Bytes) :=
  match args with
  | [] => .ok (0, usage)
  | a :: rest => do
    if ← sameBytes a (chars "tamper" ++ [0]) 7 then
      if stdin.length < 32 then .ok (1, [])
      else
        let (ret, beta) := tamper G (toB32 (stdin.take 32)) beta0
        if ret ≠ 0 then .ok (1, banner) else .ok (0, banner ++ beta.toList)
    else if ← sameBytes a (chars "guess" ++ [0]) 6 then
      match rest with
      | [] => .ok (1, usage)
      | pwd :: _ =>
        if stdin.length < 64 then .ok (1, [])
        else do
          let ret ← guess G (Oprf.toB64 (stdin.take 64)) pwd (pwd.length - 1) rwd0
          .ok (ret, [])
    else if ← sameBytes a (chars "test" ++ [0]) 5 then do
      let (ret, _) ← test G password scratch rnd rwd0 rwd0 rwd0
      .ok (ret, banner)
    else .ok (1, usage)

end Verif.Attack
