import Verif.CoopVec.MatSpec
import Verif.CoopVec.AccumSpec
import Verif.CudaScatter.Spec

/-!
# Cooperative vectors on Metal devices

Sources: `src/metal_coop_vec.cpp` (MSL code for matrix-vector products, accumulation and outer products), `src/coop_vec.cpp:18-28,580-800` and
`src/var.cpp:2965-3036` (half precision targets).

A thread computes one entry of a cooperative vector; `α` is the element type of arrays and vectors (`half` or `float`), `β` the type `float` in which
products are accumulated.  Memory is divided into elements; `none` stands for places that must not be read.
Simplifications: 32-bit index arithmetic wraps around for all constants; sizes and types of variables are not modelled.
-/
namespace Verif.MetalCoop
open Verif.CoopMat (Descr)
open Verif.CoopVec (forN)
open Verif.CudaScatter (Bracketed red)

/-- Operations of MSL on `float` and conversions from and to the element type -/
structure Ops (α β : Type) where
  up : α → β
  down : β → α
  zero : β
  fma : β → β → β → β
  add : β → β → β
  mul : β → β → β

/-- Outcome of the generation and execution of code: the process ends (`jitc_fail`), an invalid access, or the components of the result -/
inductive Out (α : Type)
  | abort
  | fault
  | ok (r : List α)
deriving DecidableEq

/-- The result of code that may read where nothing may be read -/
def Out.ofOption {α : Type} : Option (List α) → Out α
  | none => .fault
  | some r => .ok r

/-! ### Matrix-vector products -/

/-- `((device const $t*) $v)[$u + row * $u + col]`, `metal_coop_vec.cpp:258-259,267-268` -/
def elem {α : Type} (mem : Int → Option α) (p : Int) (d : Descr) (row col : Nat) : Option α :=
  mem (p + (((d.offset + row * d.stride % 2 ^ 32) % 2 ^ 32 + col) % 2 ^ 32 : Nat))

/-- Initial value of `_acc`, `metal_coop_vec.cpp:262-266` -/
def scalarInit {α β : Type} (o : Ops α β) (mem : Int → Option α) (bias : Option (Int × Descr)) (i : Nat) : Option β :=
  match bias with
  | none => some o.zero
  | some (p, b) => (mem (p + ((b.offset + i) % 2 ^ 32 : Nat))).map o.up

/-- The scalar loop for component `i`, `metal_coop_vec.cpp:257-272` -/
def scalarRow {α β : Type} (o : Ops α β) (mem : Int → Option α) (pa : Int) (d : Descr) (transpose : Bool) (x : Nat → α) (bias : Option (Int × Descr)) (n i : Nat) : Option α :=
  (scalarInit o mem bias i).bind fun acc =>
  (forN n acc fun acc j =>
    (elem mem pa d (if transpose then j else i) (if transpose then i else j)).map fun a => o.fma (o.up a) (o.up (x j)) acc).map o.down

/-- The scalar version, `metal_coop_vec.cpp:242-278` -/
def scalar {α β : Type} (o : Ops α β) (mem : Int → Option α) (pa : Int) (d : Descr) (transpose : Bool) (x : Nat → α) (bias : Option (Int × Descr)) (n m : Nat) : Option (List α) :=
  (List.range m).mapM (scalarRow o mem pa d transpose x bias n)

/-- `pad_output`, `metal_coop_vec.cpp:176-183` -/
def padOutput (x : Nat) : Nat := if x ≤ 1 then 1 else if x ≤ 4 then 4 else (x + 7) / 8 * 8

/-- An element of the tensor `mm_w` with extents (`cols`, `rows`), which is densely packed, `metal_coop_vec.cpp:225` -/
def tensorElem {α : Type} (mem : Int → Option α) (p : Int) (d : Descr) (c r : Nat) : Option α :=
  if c < d.cols ∧ r < d.rows then mem (p + (d.offset + (r * d.cols + c) : Nat)) else none

/-- Which element of the right operand is multiplied with component `k` of the input for output `c`: the argument `transpose_right` of
`matmul2d_descriptor`, `metal_coop_vec.cpp:220-222` -/
def rightElem {α : Type} (mem : Int → Option α) (p : Int) (d : Descr) (transpose : Bool) (c k : Nat) : Option α :=
  let right := if transpose then false else true
  if right then tensorElem mem p d k c else tensorElem mem p d c k

/-- The library function `matmul2d` for one row of outputs, `metal_coop_vec.cpp:220-228`.  According to the comment in `metal_coop_vec.cpp:171-175` it
supports 1, 4 or a multiple of 8 outputs, and a contraction dimension that is a multiple of 16; nothing is known otherwise.  Outputs are sums of products in
unspecified order and bracketing; nothing is known about those that depend on elements outside of the tensor. -/
def MatMul {α β : Type} (o : Ops α β) (w : Nat → Nat → Option α) (x : Nat → α) (N K : Nat) (acc : Nat → β) : Prop :=
  (N = 1 ∨ N = 4 ∨ N % 8 = 0) → K % 16 = 0 → ∀ c < N, (∀ k < K, (w c k).isSome = true) →
    ∃ ps : List β, ps.Perm ((List.range K).filterMap fun k => (w c k).map fun a => o.mul (o.up (x k)) (o.up a)) ∧
      (ps = [] ∧ acc c = o.zero ∨ Bracketed o.add ps (acc c))

/-- "Write results back", `metal_coop_vec.cpp:230-239`.  The accumulator has `N` entries. -/
def writeBack {α β : Type} (o : Ops α β) (mem : Int → Option α) (bias : Option (Int × Descr)) (acc : Nat → β) (N m : Nat) : Option (List α) :=
  (List.range m).mapM fun i => if i < N then
    match bias with
    | none => some (o.down (acc i))
    | some (p, b) => (mem (p + ((b.offset + i) % 2 ^ 32 : Nat))).map fun v => o.down (o.add (acc i) (o.up v))
    else none

/-- The version for Metal 4, `metal_coop_vec.cpp:190-241` -/
def Fast {α β : Type} (o : Ops α β) (mem : Int → Option α) (pa : Int) (d : Descr) (transpose : Bool) (x : Nat → α) (bias : Option (Int × Descr)) (n m : Nat) (out : Out α) : Prop :=
  if d.stride ≠ d.cols then out = .abort
  else ∃ acc, MatMul o (rightElem mem pa d transpose) x (padOutput m) n acc ∧ out = .ofOption (writeBack o mem bias acc (padOutput m) m)

/-- Code for `CoopVecMatVec`, `metal_coop_vec.cpp:157-281`, on devices with and without support of Metal 4; `n` and `m` are the lengths of the input and the result
(`coop_vec.cpp:477-478,487,564`). -/
def MatVec {α β : Type} (metal4 : Bool) (o : Ops α β) (mem : Int → Option α) (pa : Int) (d : Descr) (transpose : Bool) (x : Nat → α) (bias : Option (Int × Descr)) (out : Out α) : Prop :=
  let n := if transpose then d.rows else d.cols
  let m := if transpose then d.cols else d.rows
  if metal4 = true ∧ n % 16 = 0 then Fast o mem pa d transpose x bias n m out
  else out = .ofOption (scalar o mem pa d transpose x bias n m)

/-! ### Accumulation -/

/-- What a thread supplies: its mask, the position of its target in a region of memory, and two vectors -/
structure Lane (V : Type) where
  mask : Bool
  start : Nat
  a : Nat → V
  b : Nat → V

/-- `jitc_metal_render_coop_vec_accum`, `metal_coop_vec.cpp:292-314`: the additions of a thread, with offset `lit` and `len` components -/
def accumOps {V : Type} (lit len : Nat) (l : Lane V) : List (Nat × V) :=
  if l.mask then (List.range len).map fun i => (l.start + (lit + i) % 2 ^ 32, l.a i) else []

/-- `jitc_metal_render_coop_vec_outer_product_accum`, `metal_coop_vec.cpp:316-350` -/
def outerOps {V : Type} (mul : V → V → V) (d : Descr) (m n : Nat) (l : Lane V) : List (Nat × V) :=
  if l.mask then (List.range m).flatMap fun i => (List.range n).map fun j =>
    (l.start + ((d.offset + i * d.stride % 2 ^ 32) % 2 ^ 32 + j) % 2 ^ 32, mul (l.a i) (l.b j)) else []

/-- Executions of a launch: `atomic_fetch_add_explicit` of all threads in any order -/
def Exec {V : Type} (add : V → V → V) (ops : Lane V → List (Nat × V)) (lanes : List (Lane V)) (m m' : Nat → V) : Prop :=
  ∃ ws : List (Nat × V), ws.Perm (lanes.flatMap ops) ∧ m' = ws.foldl (red add) m

/-! ### Half precision targets -/

/-- Operations on an array of half precision numbers: a reduction (of values converted to `float`), or an ordinary scatter that is known to be free of conflicts
(`ReduceMode::NoConflicts` or `Permute`), which is not preceded by an evaluation (op.cpp:2989-2996) -/
inductive Req (H F : Type)
  | reduce (us : List (Nat × F))
  | store (us : List (Nat × H))

/-- The array, its copy in single precision (`dep[3]`, if `has`), and the operations that have not been executed -/
structure St (H F : Type) where
  data : Nat → H
  shadow : Nat → F
  has : Bool
  queue : List (Req H F)

/-- Execution of queued operations by kernels -/
inductive RunQ {H F : Type} (add : F → F → F) : List (Req H F) → (Nat → H) × (Nat → F) → (Nat → H) × (Nat → F) → Prop
  | nil {s : (Nat → H) × (Nat → F)} : RunQ add [] s s
  | reduce {us ws : List (Nat × F)} {q : List (Req H F)} {d : Nat → H} {f : Nat → F} {s : (Nat → H) × (Nat → F)} : ws.Perm us →
      RunQ add q (d, ws.foldl (red add) f) s → RunQ add (.reduce us :: q) (d, f) s
  | store {us : List (Nat × H)} {q : List (Req H F)} {d : Nat → H} {f : Nat → F} {s : (Nat → H) × (Nat → F)} :
      RunQ add q (us.foldl (fun d u => Function.update d u.1 u.2) d, f) s → RunQ add (.store us :: q) (d, f) s

/-- Evaluation (`jit_eval`): kernels run, then the callback of the first reduction narrows the copy (var.cpp:2971-2995, 3021-3036; eval.cpp:1010-1028). -/
def Flush {H F : Type} (add : F → F → F) (down : F → H) (s s' : St H F) : Prop :=
  ∃ d f, RunQ add s.queue (s.data, s.shadow) (d, f) ∧ s' = ⟨if s.has then fun j => down (f j) else d, f, false, []⟩

/-- Queueing an operation (op.cpp:3013-3030; var.cpp:1202-1208, coop_vec.cpp:18-28,625-640; var.cpp:2997-3019).  The copy is made when there is none; the conversion evaluates an array with pending
operations. -/
def Push {H F : Type} (add : F → F → F) (up : H → F) (down : F → H) (r : Req H F) (s s' : St H F) : Prop :=
  match r with
  | .store us => s' = { s with queue := s.queue ++ [.store us] }
  | .reduce us =>
    if s.has then s' = { s with queue := s.queue ++ [.reduce us] }
    else ∃ s1, Flush add down s s1 ∧ s' = ⟨s1.data, fun j => up (s1.data j), true, [.reduce us]⟩

/-- A sequence of operations followed by an evaluation -/
inductive History {H F : Type} (add : F → F → F) (up : H → F) (down : F → H) : List (Req H F) → St H F → St H F → Prop
  | done {s s' : St H F} : Flush add down s s' → History add up down [] s s'
  | push {r : Req H F} {rs : List (Req H F)} {s s1 s' : St H F} : Push add up down r s s1 → History add up down rs s1 s' → History add up down (r :: rs) s s'

end Verif.MetalCoop
