import Verif.StrBuf.Model
import Mathlib.Data.List.DropRight

/-!
# What the string buffer is supposed to contain

Numbers are rendered by Lean's own `Nat.toDigits` (which also implements `toString`), so the
specification of the formatters does not share any code with the model.
-/

namespace Verif.StrBuf

/-- The canonical decimal representation of a number. -/
def decimal (n : Nat) : List Nat := (Nat.toDigits 10 n).map Char.toNat

/-- The canonical hexadecimal representation of a number (lower case). -/
def hex (n : Nat) : List Nat := (Nat.toDigits 16 n).map Char.toNat

/-- Hexadecimal with leading zeros up to 16 digits. -/
def hex16 (n : Nat) : List Nat := List.replicate (16 - (hex n).length) 48 ++ hex n

/-- The text held by the buffer: what precedes the cursor. -/
def Buf.text (b : Buf) : List Nat := b.read 0 b.cur

/-- What a C program sees when it reads the string returned by `get()`: the bytes before the
first zero byte of the allocation; `none` if the string is not terminated in it. -/
def Buf.cstr (b : Buf) : Option (List Nat) :=
  ((List.range b.cap).find? fun i => b.byte i = 0).map fun n => b.read 0 n

/-! ### Names of types and registers (documentation at the top of `eval_llvm.cpp`,
`eval_cuda.cpp` and `metal_eval.cpp`) -/

/-- Element types in the order of `enum VarType` -/
inductive Ty where
  | void | bool | baseInt | i8 | u8 | i16 | u16 | i32 | u32 | i64 | u64 | ptr | baseFloat
  | f16 | f32 | f64
  deriving DecidableEq, Repr

def Ty.ofCode (n : Nat) : Option Ty :=
  [Ty.void, .bool, .baseInt, .i8, .u8, .i16, .u16, .i32, .u32, .i64, .u64, .ptr, .baseFloat,
   .f16, .f32, .f64][n]?

/-- Size in bytes -/
def Ty.size : Ty → Nat
  | .void | .baseInt | .baseFloat => 0
  | .bool | .i8 | .u8 => 1
  | .i16 | .u16 | .f16 => 2
  | .i32 | .u32 | .f32 => 4
  | .i64 | .u64 | .ptr | .f64 => 8

/-- LLVM type of one element -/
def Ty.llvm : Ty → String
  | .bool => "i1"
  | .i8 | .u8 => "i8"
  | .i16 | .u16 => "i16"
  | .i32 | .u32 => "i32"
  | .i64 | .u64 | .ptr => "i64"
  | .f16 => "half" | .f32 => "float" | .f64 => "double"
  | _ => "???"

/-- LLVM integer type of the same size -/
def Ty.llvmBin : Ty → String
  | .bool => "i1"
  | .i8 | .u8 => "i8"
  | .i16 | .u16 | .f16 => "i16"
  | .i32 | .u32 | .f32 => "i32"
  | .i64 | .u64 | .ptr | .f64 => "i64"
  | _ => "???"

/-- LLVM integer type of twice the size -/
def Ty.llvmBig : Ty → String
  | .i8 | .u8 => "i16"
  | .i16 | .u16 => "i32"
  | .i32 | .u32 => "i64"
  | .i64 | .u64 => "i128"
  | _ => "???"

/-- Abbreviation used in names of intrinsics -/
def Ty.llvmAbbrev : Ty → String
  | .f16 => "f16" | .f32 => "f32" | .f64 => "f64"
  | t => t.llvm

/-- Register name prefix -/
def Ty.reg : Ty → String
  | .void => "%u" | .bool => "%p"
  | .i8 | .u8 => "%b"
  | .i16 | .u16 => "%w"
  | .i32 | .u32 => "%r"
  | .i64 | .u64 | .ptr => "%rd"
  | .f16 => "%h" | .f32 => "%f" | .f64 => "%d"
  | _ => "???"

/-- PTX type -/
def Ty.ptx : Ty → String
  | .bool => "pred"
  | .i8 => "s8" | .u8 => "u8" | .i16 => "s16" | .u16 => "u16" | .i32 => "s32" | .u32 => "u32"
  | .i64 => "s64" | .u64 | .ptr => "u64"
  | .f16 => "f16" | .f32 => "f32" | .f64 => "f64"
  | _ => "???"

/-- PTX untyped bits; predicates are stored as bytes -/
def Ty.ptxBits : Ty → String
  | .bool | .i8 | .u8 => "b8"
  | .i16 | .u16 | .f16 => "b16"
  | .i32 | .u32 | .f32 => "b32"
  | .i64 | .u64 | .ptr | .f64 => "b64"
  | _ => "???"

/-- PTX untyped bits, except for predicates -/
def Ty.ptxBin : Ty → String
  | .bool => "pred"
  | t => t.ptxBits

/-- Metal type; double precision is demoted -/
def Ty.metal : Ty → String
  | .void => "void" | .bool => "bool"
  | .i8 => "char" | .u8 => "uchar" | .i16 => "short" | .u16 => "ushort"
  | .i32 => "int" | .u32 => "uint" | .i64 => "long" | .u64 | .ptr => "ulong"
  | .f16 => "half" | .f32 | .f64 => "float"
  | _ => "???"

/-- Metal unsigned integer type of the same size -/
def Ty.metalBin : Ty → String
  | .bool | .i8 | .u8 => "uchar"
  | .i16 | .u16 | .f16 => "ushort"
  | .i32 | .u32 | .f32 | .f64 => "uint"
  | .i64 | .u64 | .ptr => "ulong"
  | _ => "???"

/-! ### Rendering of format strings -/

/-- `<W x type>` -/
def vec (e : Env) (t : String) : List Nat :=
  bytes "<" ++ decimal e.vectorWidth ++ bytes " x " ++ bytes t ++ bytes ">"

/-- Element types in memory: masks are stored as bytes. -/
def Ty.inMemory : Ty → Ty
  | .bool => .u8
  | t => t

/-- Text of a directive that refers to a variable `v` of type `t`. -/
def varText (e : Env) (v : VarRef) (t : Ty) : Backend → Char → Option (List Nat)
  | .llvm, 't' => some (bytes t.llvm)
  | .llvm, 'b' => some (bytes t.llvmBin)
  | .llvm, 'd' => some (bytes t.llvmBig)
  | .llvm, 'H' => some (bytes t.inMemory.llvmAbbrev)
  | .llvm, 'h' => some (bytes t.llvmAbbrev)
  | .llvm, 'm' => some (bytes t.inMemory.llvm)
  | .llvm, 'T' => some (vec e t.llvm)
  | .llvm, 'B' => some (vec e t.llvmBin)
  | .llvm, 'D' => some (vec e t.llvmBig)
  | .llvm, 'M' => some (vec e t.inMemory.llvm)
  | .llvm, 'v' => some (bytes t.reg ++ decimal v.regIndex)
  | .llvm, 'V' => some (vec e t.llvm ++ bytes " " ++ bytes t.reg ++ decimal v.regIndex)
  | .llvm, 'l' => some <| match t with
    | .f16 => bytes "0x" ++ hex (e.f16to64 v.literal)
    | .f32 => bytes "0x" ++ hex (e.f32to64 v.literal)
    | .f64 => bytes "0x" ++ hex v.literal
    | _ => decimal v.literal
  | .llvm, 'a' => some (decimal (if v.unaligned then 1 else t.size))
  | .llvm, 'A' => some (decimal (if v.unaligned then 1 else t.size * e.vectorWidth))
  | .llvm, 'o' => some (decimal (v.paramOffset / 8))
  | .cuda, 't' => some (bytes t.ptx)
  | .cuda, 'B' => some (bytes t.ptxBits)
  | .cuda, 'b' => some (bytes t.ptxBin)
  | .cuda, 'V' =>
    some (if t = .bool then bytes "%w0" else bytes t.reg ++ decimal v.regIndex)
  | .cuda, 'v' => some (bytes t.reg ++ decimal v.regIndex)
  | .cuda, 'l' => some (bytes "0x" ++ hex v.literal)
  | .cuda, 'a' => some (decimal t.size)
  | .cuda, 'o' => some (decimal v.paramOffset)
  | .metal, 't' => some (bytes t.metal)
  | .metal, 'b' => some (bytes t.metalBin)
  | .metal, 'v' => some (bytes "r" ++ decimal v.regIndex)
  | .metal, 'l' => some (bytes "0x" ++ hex v.literal)
  | .metal, 'o' => if 8 ≤ v.paramOffset then some (decimal (v.paramOffset / 8 - 1)) else none
  | _, _ => none

/-- Text of a directive without argument (LLVM backend only).  `$<` and `$>` only produce output
within callables. -/
def plainText (e : Env) : Backend → Char → Option (List Nat)
  | .llvm, 'w' => some (decimal e.vectorWidth)
  | .llvm, 'z' => some (bytes "zeroinitializer")
  | .llvm, '<' => some (if e.callableDepth > 0 then
      bytes "<" ++ decimal e.vectorWidth ++ bytes " x " else [])
  | .llvm, '>' => some (if e.callableDepth > 0 then bytes ">" else [])
  | _, _ => none

/-- Text of a directive with an argument. -/
def argText (e : Env) (be : Backend) (c : Char) : Arg → Option (List Nat)
  | .u32 n => if c = 'u' then some (decimal n) else none
  | .u64 n => if c = 'Q' ∧ be ≠ .metal then some (hex16 n) else none
  | .str s => if c = 's' then some s else none
  | .var v => (Ty.ofCode v.type).bind fun t => varText e v t be c

/-- The text described by a format string and its arguments.  `none` when the format contains
an unknown directive, or when number and types of the arguments do not match it. -/
def render (e : Env) (be : Backend) : List Nat → List Arg → Option (List Nat)
  | [], [] => some []
  | [], _ :: _ => none
  | 36 :: c :: p, args =>
    match plainText e be (Char.ofNat c), args with
    | some t, args => (render e be p args).map (t ++ ·)
    | none, a :: args =>
      (argText e be (Char.ofNat c) a).bind fun t => (render e be p args).map (t ++ ·)
    | none, [] => none
  | [36], _ => none
  | c :: p, args => (render e be p args).map (c :: ·)

/-- Ranges of the C++ types of arguments. -/
def Arg.inRange : Arg → Prop
  | .u32 n => n < 2 ^ 32
  | .u64 n => n < 2 ^ 64
  | .str _ => True
  | .var v => v.regIndex < 2 ^ 32 ∧ v.literal < 2 ^ 64 ∧ v.paramOffset < 2 ^ 32

/-- Ranges of the global state: the vector width is small enough that the size of a vector
is representable. -/
structure Env.inRange (e : Env) : Prop where
  width : e.vectorWidth * 8 < 2 ^ 32
  f32 : ∀ n, e.f32to64 n < 2 ^ 64
  f16 : ∀ n, e.f16to64 n < 2 ^ 64

/-! ### Histories

A program works with any number of string buffers, which have names.  -/

/-- Operations of the class `StringBuffer` -/
inductive Op where
  | put (s : List Nat) | putc (c : Nat) | putn (c count : Nat)
  | putU32 (n : Nat) | putU64 (n : Nat) | putX32 (n : Nat) | putX64 (n : Nat)
  | fmt (text : List Nat)
  | fmtBackend (be : Backend) (format : List Nat) (args : List Arg)
  | clear | rewindTo (pos : Nat) | rewind (rel : Nat)
  | deleteTrailingCommas
  | moveSuffix (start target : Nat)

/-- Execute an operation. -/
def Op.run (e : Env) (b : Buf) : Op → Except Fault Buf
  | .put s => StrBuf.put b s
  | .putc c => StrBuf.putc b c
  | .putn c k => StrBuf.putn b c k
  | .putU32 n => StrBuf.putU32 b n
  | .putU64 n => StrBuf.putU64 b n
  | .putX32 n => StrBuf.putX32 b n
  | .putX64 n => StrBuf.putX64 b n
  | .fmt t => StrBuf.fmt b t
  | .fmtBackend be f a => StrBuf.fmtBackend e be b f a
  | .clear => StrBuf.clear b
  | .rewindTo p => StrBuf.rewindTo b p
  | .rewind r => StrBuf.rewind b r
  | .deleteTrailingCommas => .ok (StrBuf.deleteTrailingCommas b)
  | .moveSuffix s t => StrBuf.moveSuffix b s t

/-- The effect of an operation on the text; `none` when the operation must not be used
(rewinding past the start, a format that does not match its arguments, …). -/
def Op.text (e : Env) (t : List Nat) : Op → Option (List Nat)
  | .put s => some (t ++ s)
  | .putc c => some (t ++ [c])
  | .putn c k => some (t ++ List.replicate k c)
  | .putU32 n => if n < 2 ^ 32 then some (t ++ decimal n) else none
  | .putU64 n => if n < 2 ^ 64 then some (t ++ decimal n) else none
  | .putX32 n => if n < 2 ^ 32 then some (t ++ hex n) else none
  | .putX64 n => if n < 2 ^ 64 then some (t ++ hex n) else none
  | .fmt s => some (t ++ s)
  | .fmtBackend be f a => (render e be f a).map (t ++ ·)
  | .clear => some []
  | .rewindTo p => if p ≤ t.length then some (t.take p) else none
  | .rewind r => if r ≤ t.length then some (t.take (t.length - r)) else none
  | .deleteTrailingCommas => some (t.rdropWhile fun c => c = 44 ∨ c = 32)
  | .moveSuffix s p =>
    if p ≤ s ∧ s ≤ t.length then some (t.take p ++ t.drop s ++ (t.drop p).take (s - p)) else none

/-- Format strings consist of bytes, and their arguments are in the ranges of their types. -/
def Op.inRange : Op → Prop
  | .fmtBackend _ f a => (∀ c ∈ f, c < 256) ∧ ∀ x ∈ a, x.inRange
  | _ => True

/-- Operations that terminate the string.  The others are `put_u32`, `put_u64`, `put_x32`,
`put_x64` and `delete_trailing_commas`. -/
def Op.terminates : Op → Bool
  | .putU32 _ | .putU64 _ | .putX32 _ | .putX64 _ | .deleteTrailingCommas => false
  | _ => true

/-- Steps of a program working with string buffers -/
inductive Step where
  /-- construct buffer `i`; `junk` is what the allocated memory contains -/
  | new (i capacity : Nat) (junk : Nat → Nat)
  /-- an operation on buffer `i` -/
  | op (i : Nat) (o : Op)
  /-- `swap()`, which also implements move assignment (strbuf.cpp:283-286, 324-328) -/
  | swap (i j : Nat)
  /-- construct buffer `i` by moving from `j` (strbuf.cpp:266-269) -/
  | moveNew (i j : Nat)

/-- Replace the value of a function at one point -/
def upd {α : Type} (f : Nat → α) (i : Nat) (x : α) : Nat → α := fun j => if j = i then x else f j

/-- Execute a step; a world maps names to buffers. -/
def Step.run (e : Env) (w : Nat → Buf) : Step → Except Fault (Nat → Buf)
  | .new i c junk => .ok (upd w i (StrBuf.new c junk))
  | .op i o => do
    let b ← o.run e (w i)
    return upd w i b
  | .swap i j => .ok (upd (upd w i (w j)) j (w i))
  | .moveNew i j => .ok (upd (upd w i (w j)) j ⟨0, 0, (w j).byte⟩)

/-- What a program knows about a buffer: its text, and whether the last operation on it is one
of those that terminate the string -/
structure Known where
  text : List Nat
  terminated : Bool

/-- The intended effect of a step -/
def Step.effect (e : Env) (k : Nat → Known) : Step → Option (Nat → Known)
  | .new i _ _ => some (upd k i ⟨[], true⟩)
  | .op i o => (o.text e (k i).text).map fun t => upd k i ⟨t, o.terminates⟩
  | .swap i j => some (upd (upd k i (k j)) j (k i))
  | .moveNew i j => if i = j then none else some (upd (upd k i (k j)) j ⟨[], true⟩)

def Step.inRange : Step → Prop
  | .op _ o => o.inRange
  | _ => True

/-- Execute a program. -/
def runSteps (e : Env) : (Nat → Buf) → List Step → Except Fault (Nat → Buf)
  | w, [] => .ok w
  | w, s :: l => do
    let w ← s.run e w
    runSteps e w l

/-- The intended effect of a program; `none` when it uses an operation that must not be used. -/
def effects (e : Env) : (Nat → Known) → List Step → Option (Nat → Known)
  | k, [] => some k
  | k, s :: l => (s.effect e k).bind fun k => effects e k l

/-- Initially, all buffers are empty and own no memory. -/
def world0 (junk : Nat → Nat → Nat) : Nat → Buf := fun i => ⟨0, 0, junk i⟩
def known0 : Nat → Known := fun _ => ⟨[], true⟩

end Verif.StrBuf
