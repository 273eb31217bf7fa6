import Verif.Base.Bytes

/-!
# Integers of the Noise library, src/noise_xk/include/karmel

* `FStar_UInt_8_16_32_64.h`: comparisons without branches.
* Three implementations of integers of 128 bits: `FStar_UInt128_Verified.h` (a structure of two words), `fstar_uint128_msvc.h` (a
  vector register of two words) and `fstar_uint128_gcc64.h` (`unsigned __int128`).
* `lowstar_endianness.h`: byte order.
* `target.h`: unrolled loops.

A shift by the width of the type or more is undefined in C; `none` stands for that. The intrinsics of the compiler are taken from
Intel's description. Of the file for MSVC the part for `HAS_OPTIMIZED` is modelled; its other part is `FStar_UInt128_Verified.h` but
for a syntax error in `FStar_UInt128_add_underspec` (fstar_uint128_msvc.h:107).
-/

namespace Verif.Karmel

/-! ### Comparisons, FStar_UInt_8_16_32_64.h -/

/-- `FStar_UInt64_eq_mask`, lines 35-42 -/
def eqMask64 (a b : BitVec 64) : BitVec 64 :=
  let x := a ^^^ b
  let minusX := ~~~x + 1#64
  let xOrMinusX := x ||| minusX
  let xnx := xOrMinusX >>> 63
  xnx - 1#64

/-- `FStar_UInt64_gte_mask`, lines 44-55 -/
def gteMask64 (a b : BitVec 64) : BitVec 64 :=
  let x := a
  let y := b
  let xXorY := x ^^^ y
  let xSubY := x - y
  let xSubYXorY := xSubY ^^^ y
  let q := xXorY ||| xSubYXorY
  let xXorQ := x ^^^ q
  let xXorQ' := xXorQ >>> 63
  xXorQ' - 1#64

/-- `FStar_UInt32_eq_mask`, lines 83-90 -/
def eqMask32 (a b : BitVec 32) : BitVec 32 :=
  let x := a ^^^ b
  let minusX := ~~~x + 1#32
  let xOrMinusX := x ||| minusX
  let xnx := xOrMinusX >>> 31
  xnx - 1#32

/-- `FStar_UInt32_gte_mask`, lines 92-103 -/
def gteMask32 (a b : BitVec 32) : BitVec 32 :=
  let x := a
  let y := b
  let xXorY := x ^^^ y
  let xSubY := x - y
  let xSubYXorY := xSubY ^^^ y
  let q := xXorY ||| xSubYXorY
  let xXorQ := x ^^^ q
  let xXorQ' := xXorQ >>> 31
  xXorQ' - 1#32

/-- The cast to `uint32_t` -/
abbrev wide {w : ℕ} (x : BitVec w) : BitVec 32 := x.setWidth 32

/-- `FStar_UInt16_eq_mask`, lines 131-138: the operations are those of `uint32_t`, and every result is cut. `~x` is an `int`. -/
def eqMask16 (a b : BitVec 16) : BitVec 16 :=
  let x : BitVec 16 := (wide a ^^^ wide b).setWidth 16
  let minusX : BitVec 16 := (~~~(wide x) + 1#32).setWidth 16
  let xOrMinusX : BitVec 16 := (wide x ||| wide minusX).setWidth 16
  let xnx : BitVec 16 := (wide xOrMinusX >>> 15).setWidth 16
  (wide xnx - 1#32).setWidth 16

/-- `FStar_UInt16_gte_mask`, lines 140-151 -/
def gteMask16 (a b : BitVec 16) : BitVec 16 :=
  let x := a
  let y := b
  let xXorY : BitVec 16 := (wide x ^^^ wide y).setWidth 16
  let xSubY : BitVec 16 := (wide x - wide y).setWidth 16
  let xSubYXorY : BitVec 16 := (wide xSubY ^^^ wide y).setWidth 16
  let q : BitVec 16 := (wide xXorY ||| wide xSubYXorY).setWidth 16
  let xXorQ : BitVec 16 := (wide x ^^^ wide q).setWidth 16
  let xXorQ' : BitVec 16 := (wide xXorQ >>> 15).setWidth 16
  (wide xXorQ' - 1#32).setWidth 16

/-- `FStar_UInt8_eq_mask`, lines 179-186 -/
def eqMask8 (a b : BitVec 8) : BitVec 8 :=
  let x : BitVec 8 := (wide a ^^^ wide b).setWidth 8
  let minusX : BitVec 8 := (~~~(wide x) + 1#32).setWidth 8
  let xOrMinusX : BitVec 8 := (wide x ||| wide minusX).setWidth 8
  let xnx : BitVec 8 := (wide xOrMinusX >>> 7).setWidth 8
  (wide xnx - 1#32).setWidth 8

/-- `FStar_UInt8_gte_mask`, lines 188-199 -/
def gteMask8 (a b : BitVec 8) : BitVec 8 :=
  let x := a
  let y := b
  let xXorY : BitVec 8 := (wide x ^^^ wide y).setWidth 8
  let xSubY : BitVec 8 := (wide x - wide y).setWidth 8
  let xSubYXorY : BitVec 8 := (wide xSubY ^^^ wide y).setWidth 8
  let q : BitVec 8 := (wide xXorY ||| wide xSubYXorY).setWidth 8
  let xXorQ : BitVec 8 := (wide x ^^^ wide q).setWidth 8
  let xXorQ' : BitVec 8 := (wide xXorQ >>> 7).setWidth 8
  (wide xXorQ' - 1#32).setWidth 8

/-! ### Shifts of C -/

def shl {w : ℕ} (x : BitVec w) (s : BitVec 32) : Option (BitVec w) := if s.toNat < w then some (x <<< s.toNat) else none

def shr {w : ℕ} (x : BitVec w) (s : BitVec 32) : Option (BitVec w) := if s.toNat < w then some (x >>> s.toNat) else none

/-! ### Two words, FStar_UInt128_Verified.h -/

/-- `FStar_UInt128_uint128`, types.h:78-81 -/
structure U128 where
  low : BitVec 64
  high : BitVec 64
  deriving DecidableEq

/-- `FStar_UInt128_constant_time_carry`, lines 16-24 -/
def carry (a b : BitVec 64) : BitVec 64 := (a ^^^ ((a ^^^ b) ||| ((a - b) ^^^ b))) >>> 63

/-- `FStar_UInt128_add`, `_add_underspec` and `_add_mod`, lines 26-51; the three have the same body. -/
def add (a b : U128) : U128 := ⟨a.low + b.low, a.high + b.high + carry (a.low + b.low) b.low⟩

/-- `FStar_UInt128_sub`, `_sub_underspec`, `_sub_mod_impl` and `_sub_mod`, lines 53-84 -/
def sub (a b : U128) : U128 := ⟨a.low - b.low, a.high - b.high - carry a.low (a.low - b.low)⟩

/-- lines 86-93 -/
def logand (a b : U128) : U128 := ⟨a.low &&& b.low, a.high &&& b.high⟩

/-- lines 95-102 -/
def logxor (a b : U128) : U128 := ⟨a.low ^^^ b.low, a.high ^^^ b.high⟩

/-- lines 104-111 -/
def logor (a b : U128) : U128 := ⟨a.low ||| b.low, a.high ||| b.high⟩

/-- lines 113-119 -/
def lognot (a : U128) : U128 := ⟨~~~a.low, ~~~a.high⟩

/-- lines 123-132 -/
def addShiftLeft (hi lo : BitVec 64) (s : BitVec 32) : Option (BitVec 64) := do
  let x ← shl hi s
  let y ← shr lo (64#32 - s)
  pure (x + y)

/-- lines 134-148 -/
def shiftLeftSmall (a : U128) (s : BitVec 32) : Option U128 :=
  if s = 0#32 then some a
  else do
    let low ← shl a.low s
    let high ← addShiftLeft a.high a.low s
    pure ⟨low, high⟩

/-- lines 150-157 -/
def shiftLeftLarge (a : U128) (s : BitVec 32) : Option U128 := do
  let high ← shl a.low (s - 64#32)
  pure ⟨0#64, high⟩

/-- `FStar_UInt128_shift_left`, lines 159-170 -/
def shiftLeft (a : U128) (s : BitVec 32) : Option U128 :=
  if s.toNat < 64 then shiftLeftSmall a s else shiftLeftLarge a s

/-- lines 172-181 -/
def addShiftRight (hi lo : BitVec 64) (s : BitVec 32) : Option (BitVec 64) := do
  let x ← shr lo s
  let y ← shl hi (64#32 - s)
  pure (x + y)

/-- lines 183-197 -/
def shiftRightSmall (a : U128) (s : BitVec 32) : Option U128 :=
  if s = 0#32 then some a
  else do
    let low ← addShiftRight a.high a.low s
    let high ← shr a.high s
    pure ⟨low, high⟩

/-- lines 199-206 -/
def shiftRightLarge (a : U128) (s : BitVec 32) : Option U128 := do
  let low ← shr a.high (s - 64#32)
  pure ⟨low, 0#64⟩

/-- `FStar_UInt128_shift_right`, lines 208-219 -/
def shiftRight (a : U128) (s : BitVec 32) : Option U128 :=
  if s.toNat < 64 then shiftRightSmall a s else shiftRightLarge a s

/-- lines 221-224 -/
def eq (a b : U128) : Bool := a.low == b.low && a.high == b.high

/-- lines 226-229 -/
def gt (a b : U128) : Bool := decide (a.high > b.high) || (a.high == b.high && decide (a.low > b.low))

/-- lines 231-234 -/
def lt (a b : U128) : Bool := decide (a.high < b.high) || (a.high == b.high && decide (a.low < b.low))

/-- lines 236-239 -/
def gte (a b : U128) : Bool := decide (a.high > b.high) || (a.high == b.high && decide (a.low ≥ b.low))

/-- lines 241-244 -/
def lte (a b : U128) : Bool := decide (a.high < b.high) || (a.high == b.high && decide (a.low ≤ b.low))

/-- `FStar_UInt128_eq_mask`, lines 246-253 -/
def eqMask (a b : U128) : U128 :=
  ⟨eqMask64 a.low b.low &&& eqMask64 a.high b.high, eqMask64 a.low b.low &&& eqMask64 a.high b.high⟩

/-- `FStar_UInt128_gte_mask`, lines 255-266 -/
def gteMask (a b : U128) : U128 :=
  ⟨(gteMask64 a.high b.high &&& ~~~(eqMask64 a.high b.high)) ||| (eqMask64 a.high b.high &&& gteMask64 a.low b.low),
    (gteMask64 a.high b.high &&& ~~~(eqMask64 a.high b.high)) ||| (eqMask64 a.high b.high &&& gteMask64 a.low b.low)⟩

/-- lines 268-274 -/
def ofU64 (a : BitVec 64) : U128 := ⟨a, 0#64⟩

/-- lines 276-279 -/
def toU64 (a : U128) : BitVec 64 := a.low

/-- lines 281-284 -/
def mod32 (a : BitVec 64) : BitVec 64 := a &&& 0xffffffff#64

/-- `FStar_UInt128_u32_combine` and `FStar_UInt128_u32_combine_`, lines 288-291 and 309-312 -/
def combine (hi lo : BitVec 64) : BitVec 64 := lo + (hi <<< 32)

/-- `FStar_UInt128_mul32`, lines 293-307 -/
def mul32 (x : BitVec 64) (y : BitVec 32) : U128 :=
  ⟨combine ((x >>> 32) * y.setWidth 64 + ((mod32 x * y.setWidth 64) >>> 32)) (mod32 (mod32 x * y.setWidth 64)),
    ((x >>> 32) * y.setWidth 64 + ((mod32 x * y.setWidth 64) >>> 32)) >>> 32⟩

/-- `FStar_UInt128_mul_wide`, lines 314-342 -/
def mulWide (x y : BitVec 64) : U128 :=
  ⟨combine (mod32 x * (y >>> 32) + mod32 ((x >>> 32) * mod32 y + ((mod32 x * mod32 y) >>> 32))) (mod32 (mod32 x * mod32 y)),
    (x >>> 32) * (y >>> 32) + (((x >>> 32) * mod32 y + ((mod32 x * mod32 y) >>> 32)) >>> 32) +
      ((mod32 x * (y >>> 32) + mod32 ((x >>> 32) * mod32 y + ((mod32 x * mod32 y) >>> 32))) >>> 32)⟩

/-! ### A vector register, fstar_uint128_msvc.h -/

namespace Msvc

/-- `_addcarry_u64`: carry and sum -/
def addcarry (c : Bool) (a b : BitVec 64) : Bool × BitVec 64 :=
  (decide (2 ^ 64 ≤ a.toNat + b.toNat + c.toNat), BitVec.ofNat 64 (a.toNat + b.toNat + c.toNat))

/-- `_subborrow_u64`: borrow and difference -/
def subborrow (c : Bool) (a b : BitVec 64) : Bool × BitVec 64 :=
  (decide (a.toNat < b.toNat + c.toNat), a - b - BitVec.ofNat 64 c.toNat)

/-- `_mm_set_epi64x` -/
def set (h l : BitVec 64) : U128 := ⟨l, h⟩

/-- `_mm_andnot_si128`: the complement of the first operand and the second one -/
def andnot (a b : U128) : U128 := ⟨~~~a.low &&& b.low, ~~~a.high &&& b.high⟩

/-- The 32 bits with a number, from the lowest ones -/
def lane (a : U128) : Fin 4 → BitVec 32
  | 0 => a.low.setWidth 32
  | 1 => (a.low >>> 32).setWidth 32
  | 2 => a.high.setWidth 32
  | 3 => (a.high >>> 32).setWidth 32

def ofLanes (f : Fin 4 → BitVec 32) : U128 := ⟨f 1 ++ f 0, f 3 ++ f 2⟩

/-- `_mm_cmpeq_epi32` -/
def cmpeq (a b : U128) : U128 := ofLanes fun i => if lane a i = lane b i then BitVec.allOnes 32 else 0#32

/-- `_mm_shuffle_epi32` with `_MM_SHUFFLE(d, c, b, a)` -/
def shuffle (x : U128) (d c b a : Fin 4) : U128 :=
  ofLanes fun
    | 0 => lane x a
    | 1 => lane x b
    | 2 => lane x c
    | 3 => lane x d

/-- `__shiftleft128`: the upper half of the shifted number; the distance is taken modulo 64. -/
def shiftleft128 (lo hi : BitVec 64) (s : BitVec 8) : BitVec 64 := ((hi ++ lo) <<< (s.toNat % 64)).extractLsb' 64 64

/-- `__shiftright128`: the lower half -/
def shiftright128 (lo hi : BitVec 64) (s : BitVec 8) : BitVec 64 := ((hi ++ lo) >>> (s.toNat % 64)).extractLsb' 0 64

/-- `_umul128`: lower and upper half of the product -/
def umul128 (x y : BitVec 64) : BitVec 64 × BitVec 64 :=
  (BitVec.ofNat 64 (x.toNat * y.toNat), BitVec.ofNat 64 (x.toNat * y.toNat / 2 ^ 64))

/-- `FStar_UInt128_add` and, through it, `_add_underspec` and `_add_mod`, lines 83-122 -/
def add (a b : U128) : U128 :=
  let r := addcarry false a.low b.low
  let q := addcarry r.1 a.high b.high
  set q.2 r.2

/-- `FStar_UInt128_sub`, `_sub_underspec` and `_sub_mod`, lines 124-167 -/
def sub (a b : U128) : U128 :=
  let r := subborrow false a.low b.low
  let q := subborrow r.1 a.high b.high
  set q.2 r.2

/-- `FStar_UInt128_lognot`, lines 205-214 -/
def lognot (a : U128) : U128 := andnot a a

/-- `FStar_UInt128_shift_left`, lines 248-258 -/
def shiftLeft (a : U128) (s : BitVec 32) : Option U128 :=
  if s = 0#32 then some a
  else if s.toNat < 64 then do
    let l ← shl a.low s
    pure (set (shiftleft128 a.low a.high (s.setWidth 8)) l)
  else do
    let h ← shl a.low (s - 64#32)
    pure (set h 0#64)

/-- `FStar_UInt128_shift_right`, lines 298-308 -/
def shiftRight (a : U128) (s : BitVec 32) : Option U128 :=
  if s = 0#32 then some a
  else if s.toNat < 64 then do
    let h ← shr a.high s
    pure (set h (shiftright128 a.low a.high (s.setWidth 8)))
  else do
    let l ← shr a.high (s - 64#32)
    pure (set 0#64 l)

/-- `FStar_UInt128_eq_mask`, lines 338-352 -/
def eqMask (a b : U128) : U128 :=
  let r32 := cmpeq a b
  let s32 := shuffle r32 2 3 0 1
  let ret64 := logand r32 s32
  let s64 := shuffle ret64 1 0 3 2
  logand ret64 s64

/-- `FStar_UInt128_mul32`, lines 430-434 -/
def mul32 (x : BitVec 64) (y : BitVec 32) : U128 :=
  let r := umul128 x (y.setWidth 64)
  set r.2 r.1

/-- `FStar_UInt128_mul_wide`, lines 496-501 -/
def mulWide (x y : BitVec 64) : U128 :=
  let r := umul128 x y
  set r.2 r.1

end Msvc

/-! ### `unsigned __int128`, fstar_uint128_gcc64.h. Other functions are a single operation of the compiler. -/

namespace Gcc

/-- `FStar_UInt128_shift_left`, lines 90-92 -/
def shiftLeft (x : BitVec 128) (s : BitVec 32) : Option (BitVec 128) := shl x s

/-- `FStar_UInt128_shift_right`, lines 94-96 -/
def shiftRight (x : BitVec 128) (s : BitVec 32) : Option (BitVec 128) := shr x s

/-- `FStar_UInt128_eq_mask`, lines 110-115 -/
def eqMask (x y : BitVec 128) : BitVec 128 :=
  let mask : BitVec 64 := eqMask64 ((x >>> 64).setWidth 64) ((y >>> 64).setWidth 64) &&& eqMask64 (x.setWidth 64) (y.setWidth 64)
  (mask.setWidth 128 <<< 64) ||| mask.setWidth 128

/-- `FStar_UInt128_gte_mask`, lines 117-123 -/
def gteMask (x y : BitVec 128) : BitVec 128 :=
  let mask : BitVec 64 :=
    (gteMask64 ((x >>> 64).setWidth 64) ((y >>> 64).setWidth 64) &&& ~~~(eqMask64 ((x >>> 64).setWidth 64) ((y >>> 64).setWidth 64))) |||
      (eqMask64 ((x >>> 64).setWidth 64) ((y >>> 64).setWidth 64) &&& gteMask64 (x.setWidth 64) (y.setWidth 64))
  (mask.setWidth 128 <<< 64) ||| mask.setWidth 128

end Gcc

/-! ### Byte order, lowstar_endianness.h -/

inductive Order
  | little
  | big
  deriving DecidableEq

/-- The cases of lines 14-153. `system`: the functions of the platform (Linux, macOS, Solaris, BSD), which are taken as correct.
`windows`: MSVC and others on Windows, with the functions of the compiler. The last two are for unknown platforms. -/
inductive Platform
  | system (o : Order)
  | windows
  | fallback (o : Order)
  deriving DecidableEq

def Platform.order : Platform → Order
  | .system o => o
  | .windows => .little
  | .fallback o => o

/-- The integer of `n` bytes that is stored as `b` -/
def ofRep (o : Order) (n : ℕ) (b : Bytes) : BitVec (8 * n) :=
  match o with
  | .little => BitVec.ofNat _ (leNat b)
  | .big => BitVec.ofNat _ (beNat b)

/-- The bytes of an integer -/
def rep (o : Order) (n : ℕ) (x : BitVec (8 * n)) : Bytes :=
  match o with
  | .little => leBytes n x.toNat
  | .big => beBytes n x.toNat

/-- The bytes in reverse order, as `__builtin_bswap` does -/
def bswap (n : ℕ) (x : BitVec (8 * n)) : BitVec (8 * n) := ofRep .big n (rep .little n x)

/-- lines 108-113 and 132-137 -/
def swap32 (t : BitVec 32) : BitVec 32 :=
  ((t >>> 24) &&& 0x000000FF#32) ||| ((t >>> 8) &&& 0x0000FF00#32) ||| ((t <<< 8) &&& 0x00FF0000#32) |||
    ((t <<< 24) &&& 0xFF000000#32)

/-- `htobe32` and `be32toh` -/
def htobe32 : Platform → BitVec 32 → BitVec 32
  | .system .little, x => bswap 4 x
  | .system .big, x => x
  | .windows, x => bswap 4 x
  | .fallback .big, x => x
  | .fallback .little, x => swap32 x

/-- `htole32` and `le32toh` -/
def htole32 : Platform → BitVec 32 → BitVec 32
  | .system .little, x => x
  | .system .big, x => bswap 4 x
  | .windows, x => x
  | .fallback .big, x => swap32 x
  | .fallback .little, x => x

/-- lines 118-124 and 142-148: both use `htobe32`. -/
def swap64 (p : Platform) (t : BitVec 64) : BitVec 64 :=
  let low := htobe32 p (t.setWidth 32)
  let high := htobe32 p ((t >>> 32).setWidth 32)
  (low.setWidth 64 <<< 32) ||| high.setWidth 64

/-- `htobe64` and `be64toh` -/
def htobe64 : Platform → BitVec 64 → BitVec 64
  | .system .little, x => bswap 8 x
  | .system .big, x => x
  | .windows, x => bswap 8 x
  | .fallback .big, x => x
  | .fallback .little, x => swap64 (.fallback .little) x

/-- `htole64` and `le64toh` -/
def htole64 : Platform → BitVec 64 → BitVec 64
  | .system .little, x => x
  | .system .big, x => bswap 8 x
  | .windows, x => x
  | .fallback .big, x => swap64 (.fallback .big) x
  | .fallback .little, x => x

/-- `load32_le`, lines 166-170 and 197; reads 4 bytes -/
def load32le (p : Platform) (b : Bytes) : BitVec 32 := htole32 p (ofRep p.order 4 (b.take 4))

/-- `load32_be`, line 199 -/
def load32be (p : Platform) (b : Bytes) : BitVec 32 := htobe32 p (ofRep p.order 4 (b.take 4))

/-- `store32_le`, lines 182-184 and 198: the bytes that are written -/
def store32le (p : Platform) (x : BitVec 32) : Bytes := rep p.order 4 (htole32 p x)

/-- `store32_be`, line 200 -/
def store32be (p : Platform) (x : BitVec 32) : Bytes := rep p.order 4 (htobe32 p x)

/-- `load64_le`, lines 172-176 and 202 -/
def load64le (p : Platform) (b : Bytes) : BitVec 64 := htole64 p (ofRep p.order 8 (b.take 8))

/-- `load64_be`, line 204 -/
def load64be (p : Platform) (b : Bytes) : BitVec 64 := htobe64 p (ofRep p.order 8 (b.take 8))

/-- `store64_le`, lines 186-188 and 203 -/
def store64le (p : Platform) (x : BitVec 64) : Bytes := rep p.order 8 (htole64 p x)

/-- `store64_be`, line 205 -/
def store64be (p : Platform) (x : BitVec 64) : Bytes := rep p.order 8 (htobe64 p x)

/-- `load128_le`, fstar_uint128_struct_endianness.h:16-19 -/
def load128le (p : Platform) (b : Bytes) : U128 := ⟨load64le p b, load64le p (b.drop 8)⟩

/-- `store128_le`, fstar_uint128_struct_endianness.h:21-24 -/
def store128le (p : Platform) (n : U128) : Bytes := store64le p n.low ++ store64le p n.high

/-- `load128_be`, fstar_uint128_struct_endianness.h:26-29 -/
def load128be (p : Platform) (b : Bytes) : U128 := ⟨load64be p (b.drop 8), load64be p b⟩

/-- `store128_be`, fstar_uint128_struct_endianness.h:31-34 -/
def store128be (p : Platform) (n : U128) : Bytes := store64be p n.high ++ store64be p n.low

/-! ### Unrolled loops, target.h -/

section
variable {σ : Type}

/-- `KRML_LOOP1`, target.h:199-203: the body, and the counter is increased. The counter is a `uint32_t`. -/
def loop1 (k : BitVec 32) (x : BitVec 32 → σ → σ) (s : BitVec 32 × σ) : BitVec 32 × σ := (s.1 + k, x s.1 s.2)

/-- `KRML_LOOP2` to `KRML_LOOP16`, target.h:205-263 -/
def loop (k : BitVec 32) (x : BitVec 32 → σ → σ) : ℕ → BitVec 32 × σ → BitVec 32 × σ
  | 1, s => loop1 k x s
  | 2, s => loop1 k x (loop1 k x s)
  | 3, s => loop1 k x (loop k x 2 s)
  | 4, s => loop k x 2 (loop k x 2 s)
  | 5, s => loop1 k x (loop k x 4 s)
  | 6, s => loop k x 2 (loop k x 4 s)
  | 7, s => loop k x 3 (loop k x 4 s)
  | 8, s => loop k x 4 (loop k x 4 s)
  | 9, s => loop1 k x (loop k x 8 s)
  | 10, s => loop k x 2 (loop k x 8 s)
  | 11, s => loop k x 3 (loop k x 8 s)
  | 12, s => loop k x 4 (loop k x 8 s)
  | 13, s => loop k x 5 (loop k x 8 s)
  | 14, s => loop k x 6 (loop k x 8 s)
  | 15, s => loop k x 7 (loop k x 8 s)
  | 16, s => loop k x 8 (loop k x 8 s)
  | _, s => s

/-- `KRML_UNROLL_FOR`, target.h:265-269 -/
def unrollFor (z : BitVec 32) (n : ℕ) (k : BitVec 32) (x : BitVec 32 → σ → σ) (s : σ) : σ := (loop k x n (z, s)).2

/-- `KRML_ACTUAL_FOR`, target.h:271-276; `fuel` bounds the number of rounds, `none` if they do not suffice. -/
def actualFor (n k : BitVec 32) (x : BitVec 32 → σ → σ) : ℕ → BitVec 32 → σ → Option σ
  | 0, i, s => if i.toNat < n.toNat then none else some s
  | fuel + 1, i, s => if i.toNat < n.toNat then actualFor n k x fuel (i + k) (x i s) else some s

/-- `KRML_MAYBE_FORn`, target.h:278-383 with `KRML_UNROLL_MAX` 16: up to 16 rounds are unrolled, and 0 rounds are nothing. -/
def maybeFor (r : ℕ) (z : BitVec 32) (k : BitVec 32) (x : BitVec 32 → σ → σ) (s : σ) : σ :=
  if r = 0 then s else unrollFor z r k x s

end

end Verif.Karmel
