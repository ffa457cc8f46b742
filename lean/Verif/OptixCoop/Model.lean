import Mathlib.Data.List.Basic
import Mathlib.Logic.Function.Basic

/-!
# Cooperative vectors on CUDA devices (OptiX)

Source: `src/optix_coop_vec.cpp`.  The components of a cooperative vector are held by 32-bit registers, which are passed to functions of OptiX with 16 or 64 operands per vector, or
through local memory when vectors have more than 64 components.

Simplifications: the functions of OptiX are not modelled, only their operands and results: a function with `size` components per vector uses the first `size` operands and
defines the first `size` results; types, layouts and pointers are part of the function.  Local memory holds elements at byte offsets.
-/
namespace Verif.OptixCoop

/-- A cooperative vector: number of its registers (`reg_index`), `array_length`, `type_size` -/
structure Vec where
  id : Nat
  len : Nat
  tsize : Nat

/-- Registers `%cv<id>_<i>`; `none`: not initialised -/
abbrev Regs := Nat → Nat → Option Nat

/-- `get_reg_count`, `optix_coop_vec.cpp:63-70` -/
def regCount (l : Nat) : Nat := if l ≤ 16 then 16 else if l ≤ 64 then 64 else 0

/-- Number of registers that are declared, `optix_coop_vec.cpp:242` -/
def declared (opLength : Nat) (v : Vec) : Nat := max (regCount opLength) v.len

/-- The bits of a register that belong to a component: those of the type -/
def bits (v : Vec) (w : Nat) : Nat := w % 2 ^ (8 * v.tsize)

/-- `put_elems` for operands, `optix_coop_vec.cpp:99-108`: `none` stands for the register `%u`, which is not initialised -/
def putElems (v : Vec) (regCount : Nat) : List (Option Nat) := (List.range regCount).map fun i => if i < v.len then some i else none

/-- Value of operand `i` of a function -/
def operand (regs : Regs) (v : Vec) (n i : Nat) : Option Nat :=
  match (putElems v n)[i]? with
  | some (some j) => (regs v.id j).map (bits v)
  | _ => none

/-- `copy_to_buffer`, `optix_coop_vec.cpp:84-89`: `st.local.b<8 * tsize>` at the offsets `tsize * i` -/
def copyToBuffer (regs : Regs) (v : Vec) : Nat → Option Nat :=
  (List.range v.len).foldl (fun b i => Function.update b (v.tsize * i) ((regs v.id i).map (bits v))) fun _ => none

/-- `copy_from_buffer`, `optix_coop_vec.cpp:91-97`: loads extend elements by zeros -/
def copyFromBuffer (buf : Nat → Option Nat) (v : Vec) (regs : Regs) : Regs :=
  (List.range v.len).foldl (fun regs i => Function.update regs v.id (Function.update (regs v.id) i (buf (v.tsize * i)))) regs

/-- Components of the operands as the function sees them: passed in registers (`n > 0`) or local memory -/
def inputs (regs : Regs) (srcs : List Vec) (n : Nat) : Option (List (List Nat)) :=
  srcs.mapM fun s => (List.range s.len).mapM fun i => if n ≠ 0 then operand regs s n i else copyToBuffer regs s (s.tsize * i)

/-- Code of loads, operations with one to three operands, conversions and products with matrices, `jitc_optix_render_coop_vec`, `optix_coop_vec.cpp:270-376, 384-494`:
`F` is the function of OptiX, which may return anything if an operand is not initialised. -/
def Render (F : List (List Nat) → Nat → Nat) (dst : Vec) (srcs : List Vec) (opLength : Nat) (regs regs' : Regs) : Prop :=
  ∃ outs : Nat → Nat, (∀ ins, inputs regs srcs (regCount opLength) = some ins → ∀ i < dst.len, bits dst (outs i) = bits dst (F ins i)) ∧
    regs' = if regCount opLength ≠ 0 then fun v i => if v = dst.id ∧ i < regCount opLength then some (outs i) else regs v i
      else copyFromBuffer (fun p => if p % dst.tsize = 0 ∧ p / dst.tsize < dst.len then some (bits dst (outs (p / dst.tsize))) else none) dst regs

/-- `op_length` of products with matrices, `optix_coop_vec.cpp:234-240`; the outer product uses the same, `optix_coop_vec.cpp:174` -/
def opLengthMatVec (dst a1 : Vec) : Nat := max dst.len a1.len

/-- `CoopVecLiteral`, `optix_coop_vec.cpp:247-250` -/
def renderLiteral (dst : Vec) (value : Nat) (regs : Regs) : Regs :=
  (List.range dst.len).foldl (fun regs i => Function.update regs dst.id (Function.update (regs dst.id) i (some (bits dst value)))) regs

/-- `CoopVecPack`, `optix_coop_vec.cpp:252-268`: `vals i` is the value of the variable `indices[i]` -/
def renderPack (dst : Vec) (vals : Nat → Nat) (regs : Regs) : Regs :=
  (List.range dst.len).foldl (fun regs i => Function.update regs dst.id (Function.update (regs dst.id) i (some (bits dst (vals i))))) regs

/-- `jitc_optix_render_coop_vec_unpack`, `optix_coop_vec.cpp:114-130` -/
def unpack (regs : Regs) (v : Vec) (i : Nat) : Option Nat := (regs v.id i).map (bits v)

/-- `Bitcast` (`jitc_var_resize`, `var.cpp:2036-2046`), `optix_coop_vec.cpp:378-382` -/
def renderCopy (dst src : Vec) (regs : Regs) : Regs :=
  (List.range (regCount dst.len)).foldl (fun regs i => Function.update regs dst.id (Function.update (regs dst.id) i (regs src.id i))) regs

/-- `jitc_optix_render_coop_vec_accum`, `optix_coop_vec.cpp:132-169`, and `jitc_optix_render_coop_vec_outer_product_accum`, `171-225`: operands of the function that adds to memory
at a byte offset; `none` if the mask is not set, `some none` if an operand is not initialised -/
def accum (regs : Regs) (srcs : List Vec) (opLength offset tsize : Nat) (mask : Bool) : Option (Option (Nat × List (List Nat))) :=
  if mask then some ((inputs regs srcs (regCount opLength)).map fun ins => (offset * tsize % 2 ^ 32, ins)) else none

end Verif.OptixCoop
