import Mathlib.Data.List.Basic

/-!
# Symbolic variables

Variables that stand for values of a symbolic loop, conditional or call have no contents outside of it.  A flag (`symbolic`) marks them and everything that is computed from them, so that
an attempt to evaluate them raises an exception.

Source: `src/op.cpp`, `src/var.cpp`, `src/array.cpp`, `src/coop_vec.cpp`.

Simplifications: only the flag is modelled.  Operations are grouped by how they set it.  Simplifications and value numbering, which return existing variables, are left out.
-/
namespace Verif.Symb

/-- Creation of a variable; operands are numbers of earlier variables -/
inductive Op where
  /-- A variable without operands: symbolic if it is a state variable of a symbolic loop, argument of a call, ... -/
  | leaf (symbolic : Bool)
  /-- Arithmetic, comparisons, conversions, gathers, texture lookups, ... -/
  | node (deps : List Nat)
  /-- `jitc_var_copy`, `jitc_var_resize` -/
  | copy (dep : Nat)
  /-- `jitc_array_read` -/
  | arrayRead (source offset mask : Nat)
  /-- `jitc_array_write` -/
  | arrayWrite (target offset value mask : Nat)
  /-- `jitc_coop_vec_pack`, `jitc_coop_vec_unpack`, `jitc_coop_vec_unary_op`, ..., `jitc_coop_vec_matvec` -/
  | coop (deps : List Nat)

/-- Flag of a variable that was created before -/
def get (fs : List Bool) (i : Nat) : Bool := fs.getD i false

/-- Flag of a new variable: `jitc_var_check_impl`, `op.cpp:162`, for most operations; `var.cpp:1907, 2040` for copies; `array.cpp:186` for reads and `array.cpp:338` for writes of arrays, which
ignore the mask and the offset, respectively.  Operations on cooperative vectors do not set the flag, `coop_vec.cpp:71-78, 130-134, 180-190, 202-212, 243-252, 296-306, 354-368, 561-575`. -/
def flagOf (fs : List Bool) : Op → Bool
  | .leaf b => b
  | .node ds => ds.any (get fs)
  | .copy d => get fs d
  | .arrayRead s o _ => get fs s || get fs o
  | .arrayWrite t _ v m => get fs t || get fs v || get fs m
  | .coop _ => false

/-- Flags of all variables of a program -/
def flags (ops : List Op) : List Bool := ops.foldl (fun fs op => fs ++ [flagOf fs op]) []

/-- `jitc_var_schedule`, `var.cpp:1657-1659`, `jitc_var_schedule_force`, `var.cpp:1684-1685`: does an attempt to evaluate the variable raise an exception because it is symbolic? -/
def evalRaises (ops : List Op) (i : Nat) : Bool := get (flags ops) i

end Verif.Symb
