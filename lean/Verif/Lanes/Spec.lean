import Verif.Lanes.Model

/-!
# Programs that use masks

The caller has a list of masks, and there is the stack.  Next to the operations on masks,
variables (also those on the stack) may be evaluated at any time.
-/
namespace Verif.Lanes
open Verif.Llvm

/-- Settings of the machine: vector width, block size of launches, number of threads.  The block size is
a multiple of the width. -/
structure Machine where
  w : Nat
  desired : Nat
  cores : Nat
  wpos : 0 < w
  dpos : 0 < desired
  div : w ∣ desired

/-- A launch of this size does not exceed the range of 32 bit numbers (see C21). -/
structure Machine.Fits (m : Machine) (size : Nat) : Prop where
  pos : 0 < size
  block : size + m.desired ≤ 2 ^ 32
  tasks : size + (2 * m.cores + 1) * m.w ≤ 2 ^ 32

/-- What an element `l` of a boolean array is, without lanes beyond the end: arrays of size 1 stand
for arrays whose elements are all the same. -/
def Expr.elem (l : Nat) : Expr → Bool
  | .lit _ v => v
  | .input n data => if n = 1 then data 0 else data l
  | .dflt _ => true
  | .node _ f => f l
  | .and _ a b => a.elem l && b.elem l
  | .cast _ a => a.elem l

/-- Programs -/
structure State where
  /-- masks that the caller obtained from `jit_var_mask_default`, `jit_var_mask_apply` or
  `jit_var_mask_peek` -/
  masks : List Expr
  stack : List Expr

/-- One step.  Only masks that were obtained from the mask functions are pushed, and evaluated variables
have more than one element. -/
inductive Step (m : Machine) : State → State → Prop
  /-- `jit_var_mask_default` -/
  | default (s : State) (n : Nat) (d : Expr) : maskDefault n = some d → Step m s { s with masks := d :: s.masks }
  /-- `jit_var_mask_apply` of any variable -/
  | apply (s : State) (c : Cfg) (x : Expr) (n : Nat) (r : Expr) : maskApply c s.stack x n = some r →
      Step m s { s with masks := r :: s.masks }
  /-- `jit_var_mask_push` -/
  | push (s : State) (x : Expr) : x ∈ s.masks → Step m s { s with stack := x :: s.stack }
  /-- `jit_var_mask_pop` -/
  | pop (s : State) (x : Expr) (st : List Expr) : s.stack = x :: st → Step m s { s with stack := st }
  /-- evaluation of a mask of the caller -/
  | eval (s : State) (i : Nat) (x : Expr) (junk : Nat → Bool) : s.masks[i]? = some x → x.size ≠ 1 →
      Step m s { s with masks := s.masks.set i (evaluate m.w junk x) }
  /-- evaluation of a mask of the stack -/
  | evalStack (s : State) (i : Nat) (x : Expr) (junk : Nat → Bool) : s.stack[i]? = some x → x.size ≠ 1 →
      Step m s { s with stack := s.stack.set i (evaluate m.w junk x) }

inductive Reachable (m : Machine) : State → Prop
  | start : Reachable m { masks := [], stack := [] }
  | step {s s' : State} : Reachable m s → Step m s s' → Reachable m s'

/-- Element `l` of the mask that `jit_var_mask_apply` should compute: the given mask, and the mask at the
top of the stack if its size is compatible -/
def wanted (stack : List Expr) (x : Expr) (size l : Nat) : Bool :=
  x.elem l && match stack with
    | [] => true
    | m :: _ => if size = 1 ∨ m.size = 1 ∨ m.size = size then m.elem l else true

end Verif.Lanes
