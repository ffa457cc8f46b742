/-!
# Models of the integer helpers in `src/common.h` and `src/malloc.cpp`

32-bit and 64-bit unsigned quantities are natural numbers below `2^32` / `2^64`; wrap-around
is written out as `% 2^32` / `% 2^64`.
-/
namespace Verif.Arith

/-- `uint32_t ceil_div(a, b)` (src/common.h:108-110), including wrap-around of `a + b - 1`. -/
def ceilDiv (a b : Nat) : Nat := ((a + b + (2 ^ 32 - 1)) % 2 ^ 32) / b

/-- `uint32_t align_up(x, a)` (src/common.h:113-115). -/
def alignUp (x a : Nat) : Nat := (ceilDiv x a * a) % 2 ^ 32

/-- `__builtin_clz` of a nonzero 32-bit number. -/
def clz32 (x : Nat) : Nat := 31 - Nat.log2 x

/-- `uint32_t log2i_ceil(x)` (src/common.h:130-141). -/
def log2iCeil (x : Nat) : Nat := if x ≤ 1 then 0 else 32 - clz32 (x - 1)

/-- One step `x |= x >> k`. -/
def smear (k x : Nat) : Nat := x ||| (x >>> k)

/-- `size_t round_pow2(size_t)` (src/malloc.cpp:38-44). -/
def roundPow2_64 (x : Nat) : Nat :=
  let x := (x + (2 ^ 64 - 1)) % 2 ^ 64
  let x := smear 2 (smear 1 x)
  let x := smear 8 (smear 4 x)
  let x := smear 32 (smear 16 x)
  (x + 1) % 2 ^ 64

/-- `uint32_t round_pow2(uint32_t)` (src/malloc.cpp:46-52). -/
def roundPow2_32 (x : Nat) : Nat :=
  let x := (x + (2 ^ 32 - 1)) % 2 ^ 32
  let x := smear 2 (smear 1 x)
  let x := smear 8 (smear 4 x)
  let x := smear 16 x
  (x + 1) % 2 ^ 32

/-- `struct divisor` (src/common.h:145-148). -/
structure Divisor where
  magic : Nat
  shift : Nat
  value : Nat
deriving Repr, DecidableEq

/-- The loop `for (tmp = value; tmp > 1; tmp >>= 1) shift++` (src/common.h:153-154). -/
def shiftLoop (tmp shift : Nat) : Nat :=
  if tmp > 1 then shiftLoop (tmp / 2) (shift + 1) else shift
termination_by tmp

/-- Constructor of `divisor` (src/common.h:152-168).  `w` is a 64-bit shift with
`shift + 32 <= 63`. -/
def Divisor.mk' (value : Nat) : Divisor :=
  let shift := shiftLoop value 0
  if value &&& ((value + (2 ^ 32 - 1)) % 2 ^ 32) ≠ 0 then
    let w := 2 ^ (shift + 32)
    let wDiv := (w / value) % 2 ^ 32
    let wRem := (w % value) % 2 ^ 32
    let magic := (wDiv * 2 + 1) % 2 ^ 32
    let wRem2 := (wRem * 2) % 2 ^ 32
    let magic := if wRem2 ≥ value ∨ wRem2 < wRem then (magic + 1) % 2 ^ 32 else magic
    { magic, shift, value }
  else { magic := 0, shift, value }

/-- `div_rem` (src/common.h:170-188), returning the pair `(div, rem)`. -/
def Divisor.divRem (d : Divisor) (input : Nat) : Nat × Nat :=
  if d.magic = 0 then
    let div := input / 2 ^ d.shift
    (div, (input + (2 ^ 32 - (div * 2 ^ d.shift) % 2 ^ 32)) % 2 ^ 32)
  else
    let hi := (input * d.magic / 2 ^ 32) % 2 ^ 32
    let div := (((input + (2 ^ 32 - hi)) % 2 ^ 32 / 2 + hi) % 2 ^ 32) / 2 ^ d.shift
    (div, (input + (2 ^ 32 - (div * d.value) % 2 ^ 32)) % 2 ^ 32)

end Verif.Arith
