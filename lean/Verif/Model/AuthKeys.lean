import Verif.Model.Device

/-!
# The file of authorised keys, src/noise_xk/example/xk-ex.c:69-115

`load_authkeys` reads a file line by line and registers the peer of every line with `Noise_XK_device_add_peer`. The device is
the one on the heap of `Model/Device.lean`.

* The buffer of `getline` and the array `key` hold bytes that may be indeterminate (`none`, or missing). Passing them on is
  undefined behaviour `uninit` here. `key` is a variable of the loop body, so its content does not survive a round.
* The line buffer is kept from line to line. When it is too short, `getline` gives it the size of the line plus any number of
  further bytes (`grow`), and these are indeterminate.
* Lengths of lines fit into `int`.
* `sodium_base642bin` is the function of libsodium for the variant without padding, without characters to ignore and with
  `b64_end`; with the latter characters after the first one that is not in the alphabet are no error.
* Messages on standard error are left out.
-/

namespace Verif.Noise.Auth

open Noise.Mem

/-- Content of an array of bytes; `none` is an indeterminate byte. -/
abbrev Buf := List (Option UInt8)

/-- `b64_char_to_byte` of libsodium; `none` is the result 0xFF. -/
def charToByte (c : UInt8) : Option ℕ :=
  if 65 ≤ c.toNat ∧ c.toNat ≤ 90 then some (c.toNat - 65)
  else if 97 ≤ c.toNat ∧ c.toNat ≤ 122 then some (c.toNat - 97 + 26)
  else if 48 ≤ c.toNat ∧ c.toNat ≤ 57 then some (c.toNat - 48 + 52)
  else if c.toNat = 43 then some 62
  else if c.toNat = 47 then some 63
  else none

/-- The loop of `sodium_base642bin`: `acc` has 32 bits, `bin` are the bytes written so far; `none` is the error ERANGE. -/
def b64Loop (maxLen : ℕ) : (s : Bytes) → (acc accLen : ℕ) → (bin : Bytes) → Option (ℕ × ℕ × Bytes)
  | [], acc, accLen, bin => some (acc, accLen, bin)
  | c :: s, acc, accLen, bin =>
    match charToByte c with
    | none => some (acc, accLen, bin)
    | some d =>
      let acc := (acc * 64 + d) % 2 ^ 32
      if accLen + 6 ≥ 8 then
        if bin.length ≥ maxLen then none
        else b64Loop maxLen s acc (accLen + 6 - 8) (bin ++ [UInt8.ofNat (acc / 2 ^ (accLen + 6 - 8))])
      else b64Loop maxLen s acc (accLen + 6) bin

/-- `sodium_base642bin`: the bytes that were written, or `none` for the result -1. -/
def base642bin (maxLen : ℕ) (s : Bytes) : Option Bytes :=
  match b64Loop maxLen s 0 0 [] with
  | none => none
  | some (acc, accLen, bin) => if accLen > 4 ∨ acc % 2 ^ accLen ≠ 0 then none else some bin

/-- What successive calls of `getline` return, xk-ex.c:82: the lines with their newline, which the last one may lack. -/
def lines : Bytes → List Bytes
  | [] => []
  | c :: l =>
    if c = 10 then [10] :: lines l
    else match lines l with
      | [] => [[c]]
      | x :: xs => (c :: x) :: xs

/-- The buffer after `getline` has put a line and its terminator there. -/
def fill (grow : ℕ → ℕ) (buf : Buf) (line : Bytes) : Buf :=
  let s : Buf := line.map some ++ [some 0]
  if s.length ≤ buf.length then s ++ buf.drop s.length else s ++ List.replicate (grow s.length) none

/-- The search for the first blank, xk-ex.c:83-86. -/
def keyEnd (line : Bytes) : ℕ := (line.takeWhile (· ≠ 32)).length

/-- The string that starts at a byte. -/
def cstring : Buf → C Bytes
  | [] => .ub .oob
  | none :: _ => .ub .uninit
  | some c :: l =>
    if c = 0 then .ok []
    else do
      let s ← cstring l
      .ok (c :: s)

/-- The array `key` with the bytes that were written to it. -/
def whole (bin : Bytes) : C B32 :=
  if h : bin.length = 32 then .ok ⟨bin.toArray, by simpa using h⟩ else .ub .uninit

def ofC {α : Type} (c : C α) : M α := fun h => do
  let a ← c
  .ok (a, h)

/-- The loop of `load_authkeys`, xk-ex.c:82-109. Every exit leads to `return 0`. -/
def loadLines (grow : ℕ → ℕ) (dvp : ℕ) : List Bytes → Buf → M Unit
  | [], _ => pure ()
  | l :: ls, buf =>
    let buf := fill grow buf l
    if keyEnd l ≠ 44 then pure ()
    else match base642bin 32 (l.take 44) with
      | none => pure ()
      | some bin => do
        let buf := buf.set (l.length - 1) (some 0)
        let name ← ofC (cstring (buf.drop 45))
        let key ← ofC (whole bin)
        let pp ← addPeer dvp (some name) key
        if pp = 0 then pure () else loadLines grow dvp ls buf

/-- `load_authkeys`, xk-ex.c:69-115; `none` is a file that cannot be opened. The variable `ret` is not returned. -/
def loadAuthkeys (grow : ℕ → ℕ) (dvp : ℕ) : Option Bytes → M Int
  | none => pure 1
  | some file => do
    loadLines grow dvp (lines file) []
    pure 0

end Verif.Noise.Auth
