/-!
# Half precision conversion (`/repo/include/drjit-core/half.h`)

The software implementation, used on platforms without hardware conversion.  A `float` is
represented by its bit pattern.  The multiplication of two `float`s is a parameter `mul`, which
the theorems constrain to be IEEE 754 multiplication in the default rounding mode (without
flushing of subnormal numbers).
-/
namespace Verif.Half

abbrev F32 := BitVec 32

/-- A C++ `bool` converted to `uint32_t` -/
def bit (b : Bool) : F32 := if b then 1#32 else 0#32

/-- `float16_to_float32_fallback` (half.h:132-147).  `bias_mul = 0x1p+112f`. -/
def toFloat (mul : F32 → F32 → F32) (value : BitVec 16) : F32 :=
  let inf_h := 0x7c00#32
  let inf_f := 0x7f800000#32
  let bias_mul := 0x77800000#32
  let sign := (value &&& 0x8000#16).setWidth 32
  let bits := value.setWidth 32 ^^^ sign
  let is_norm := bits < inf_h
  let bits := (sign <<< 16) ||| (bits <<< 13)
  let bits := mul bits bias_mul
  bits ||| (-(bit (!is_norm)) &&& inf_f)

/-- `float32_to_float16_fallback` (half.h:149-180).  `sub_rnd = 0x1p-125f`,
`sub_mul = 0x1p+13f`, `bias_mul = 0x1p-112f`. -/
def toHalf (mul : F32 → F32 → F32) (value : F32) : BitVec 16 :=
  let inf_h := 0x7c00#32
  let inf_f := 0x7f800000#32
  let min_norm := 0x38800000#32
  let qnan_h := 0x7e00#32
  let sub_rnd := 0x01000000#32
  let sub_mul := 0x46000000#32
  let bias_mul := 0x07800000#32
  let bits := value
  let sign := bits &&& 0x80000000#32
  let bits := bits ^^^ sign
  let is_nan := inf_f < bits
  let is_sub := bits < min_norm
  let norm := bits
  let subn := norm
  let subn := mul subn sub_rnd
  let subn := mul subn sub_mul
  let norm := mul norm bias_mul
  let bits := norm
  let bits := bits + ((bits >>> 13) &&& 1#32)
  let bits := bits + (((1#32) <<< 12) - 1#32)
  let bits := bits ^^^ (-(bit is_sub) &&& (subn ^^^ bits))
  let bits := bits >>> 13
  let bits := bits ^^^ (-(bit (inf_h < bits)) &&& (inf_h ^^^ bits))
  let bits := bits ^^^ (-(bit is_nan) &&& (qnan_h ^^^ bits))
  let bits := bits ||| (sign >>> 16)
  bits.setWidth 16

/-- `half::operator*(half)` (half.h:50): multiplication in single precision followed by a
conversion -/
def mulHalf (mul : F32 → F32 → F32) (a b : BitVec 16) : BitVec 16 :=
  toHalf mul (mul (toFloat mul a) (toFloat mul b))

/-- `half::operator-()` (half.h:44) -/
def negHalf (a : BitVec 16) : BitVec 16 := a ^^^ 0x8000#16

end Verif.Half
