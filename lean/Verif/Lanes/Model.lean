import Verif.Llvm.Launch

/-!
# Masks of side effects in kernels of the LLVM backend

A kernel processes packets of `w` lanes, hence the last packet of a launch may have lanes that lie
beyond the end of the arrays.  Models the masks of `/repo/src/var.cpp` (`jitc_var_mask_default`,
`jitc_var_mask_push`, `jitc_var_mask_apply`, `jitc_var_resize`), `jitc_var_and` (`/repo/src/op.cpp`), the
code that `/repo/src/llvm_eval.cpp` generates for masks, and the launch (`Verif.Llvm.Launch`).

Boolean variables are trees of operations instead of nodes of a graph; reference counts, value
numbering and pending side effects are not modelled.
-/
namespace Verif.Lanes
open Verif.Llvm

/-- A boolean variable -/
inductive Expr
  /-- `VarKind::Literal` -/
  | lit (size : Nat) (v : Bool)
  /-- `VarKind::Evaluated`: the content of memory from the start of the array on, also beyond its end -/
  | input (size : Nat) (data : Nat → Bool)
  /-- `VarKind::DefaultMask` of a counter -/
  | dflt (size : Nat)
  /-- Any other operation: its value in lane `l`, also in lanes beyond the end -/
  | node (size : Nat) (f : Nat → Bool)
  /-- `VarKind::And` -/
  | and (size : Nat) (a b : Expr)
  /-- `VarKind::Bitcast`, made by `jitc_var_resize` -/
  | cast (size : Nat) (a : Expr)

namespace Expr

/-- The field `size` -/
def size : Expr → Nat
  | lit n _ => n
  | input n _ => n
  | dflt n => n
  | node n _ => n
  | and n _ _ => n
  | cast n _ => n

/-- `v->is_evaluated()` (internal.h:374) -/
def isEvaluated : Expr → Bool
  | input _ _ => true
  | _ => false

/-- The value of a variable in a lane of a kernel.  The lane has the number `l` (first element of the
packet plus position in the packet), and the thread processes elements below `e`.

* literals: llvm_eval.cpp:167-171
* evaluated variables: llvm_eval.cpp:135-166.  A scalar is loaded from the start of the array and
  broadcast, else a packet is loaded.
* `DefaultMask`: llvm_eval.cpp:1092-1106, the counter and the end are truncated to 32 bits.
* `And`, `Bitcast`: lane by lane. -/
def value (e l : Nat) : Expr → Bool
  | lit _ v => v
  | input n data => if n ≠ 1 then data l else data 0
  | dflt _ => decide (l % 2 ^ 32 < e % 2 ^ 32)
  | node _ f => f l
  | and _ a b => a.value e l && b.value e l
  | cast _ a => a.value e l

/-- The variable with another size; see `resize` -/
def withSize (n : Nat) : Expr → Expr
  | lit _ v => lit n v
  | input _ data => input n data
  | dflt _ => dflt n
  | node _ f => node n f
  | and _ a b => and n a b
  | cast _ a => cast n a

/-- var.cpp:1998-2053 `jitc_var_resize`.  `sole`: nobody else has a reference to the variable.  `none`: an
exception -/
def resize (sole : Bool) (x : Expr) (n : Nat) : Option Expr :=
  if n = 0 then none
  else if x.size = n then some x
  else match x with
    | lit _ v => some (lit n v)
    | x =>
      if x.size ≠ 1 then none
      else if !x.isEvaluated && sole then some (x.withSize n)
      else some (cast n x)

end Expr
open Expr

/-- `JitFlag::ConstantPropagation`, and whether `jitc_var_resize` finds that there are no other
references -/
structure Cfg where
  simplify : Bool
  sole : Bool

/-- op.cpp:1460-1485 `jitc_var_and` (with `jitc_var_check`, op.cpp:76-222) for boolean variables that are
not the same variable -/
def varAnd (c : Cfg) (a b : Expr) : Option Expr :=
  let size := max a.size b.size
  if (a.size ≠ size ∧ a.size ≠ 1) ∨ (b.size ≠ size ∧ b.size ≠ 1) then none
  else if c.simplify then
    match a, b with
    | lit _ u, lit _ v => some (lit size (u && v))
    | lit _ false, _ => some (lit size false)
    | _, lit _ false => some (lit size false)
    | a, lit _ true => a.resize c.sole size
    | lit _ true, b => b.resize c.sole size
    | a, b => some (and size a b)
  else some (and size a b)

/-- var.cpp:2176-2190 `jitc_var_mask_default` -/
def maskDefault (size : Nat) : Option Expr := if size = 0 then none else some (dflt size)

/-- var.cpp:2231-2270 `jitc_var_mask_apply`.  The first entry of the list is the top of the stack. -/
def maskApply (c : Cfg) (stack : List Expr) (x : Expr) (size : Nat) : Option Expr :=
  let top := match stack with
    | [] => none
    | m :: _ => if size = 1 ∨ m.size = 1 ∨ m.size = size then some m else none
  (maskDefault size).bind fun d =>
    (match top with
      | none => some d
      | some m => if m.isEvaluated = true ∧ size = 1 then varAnd c m d else some m).bind fun mask =>
    varAnd c mask x

/-- The lanes that task `index` of a launch runs, each with the end of the range of the task
(llvm_ts.cpp:145-157 and the loop of the kernel, llvm_eval.cpp:94-96, 199-206) -/
def taskLanes (w word index : Nat) : List (Nat × Nat) :=
  (taskRange word index).elim [] fun r =>
    (packetsOf w r.1 r.2).flatMap fun p => (List.range w).map fun k => (p + k, r.2)

/-- The lanes that a launch runs -/
def launchLanes (size w desired cores : Nat) : List (Nat × Nat) :=
  let plan := launchPlan size w desired cores
  (List.range plan.1).flatMap (taskLanes w (packSizes plan.2 size))

/-- The lanes in which an operation with mask `m` (a scatter, gather or call) has an effect -/
def effects (size w desired cores : Nat) (m : Expr) : List Nat :=
  ((launchLanes size w desired cores).filter fun x => m.value x.2 x.1).map Prod.fst

/-- A kernel of size `x.size` evaluates the variable (llvm_eval.cpp:173-194): whole packets are stored,
hence memory beyond the end of the array receives the values of the lanes beyond the end.  Behind the
last packet memory contains `junk`. -/
def evaluate (w : Nat) (junk : Nat → Bool) (x : Expr) : Expr :=
  input x.size fun l => if l < cdiv x.size w * w then x.value x.size l else junk l

end Verif.Lanes
