import Verif.Scatter.Spec

/-
Scatter operations (C48): model of variables that share memory, reference counts and pending writes.

All entries are 32 bit unsigned integers here.  Masks of enclosing scopes, symbolic variables and
freezing are not modelled.  A table slot is used once, and memory is never reused; the reuse of slots
and memory is the subject of other parts (`Var`, `Alloc`).  Accesses beyond the end of an array have
no effect or yield zero; the behavior of the library is undefined then.
-/

namespace Verif.Scatter

/-- The kinds of variables (src/internal.h:31-215). -/
inductive Kind where
  | lit (c : UInt32)
  /-- `Evaluated`: the address of the data; the variable whose memory is shared (`dep[3]`), or 0 -/
  | data (addr owner : Nat)
  /-- any operation on the entries of the operands -/
  | op (f : List UInt32 → UInt32) (args : List Nat)
  /-- pointer, index, mask -/
  | gather (ptr idx msk : Nat)
  /-- a pointer to the memory of `target`; `write` is `write_ptr` (var.cpp:990-1027) -/
  | ptr (addr target : Nat) (write : Bool)
  /-- pointer, value, index, mask.  `ord` is the order in which its lanes are going to write -/
  | scatter (op : ROp) (ord : List Nat) (ptr val idx msk : Nat)

/-- References to other variables that count for `ref_count`. -/
def Kind.deps : Kind → List Nat
  | .lit _ => []
  | .data _ owner => if owner = 0 then [] else [owner]
  | .op _ args => args
  | .gather p i m => [p, i, m]
  | .ptr _ t w => if w then [] else [t]
  | .scatter _ _ p v i m => [p, v, i, m]

/-- References that count for `ref_count_se` (var.cpp:1010-1012). -/
def Kind.depsSe : Kind → List Nat
  | .ptr _ t w => if w then [t] else []
  | _ => []

/-- `struct Variable` (src/internal.h:238-392).  `alive`: the variable was not released.
`stash` is `ref_count_stashed`; `expanded` says that `reduce_op()` is not `Identity`. -/
structure Var where
  kind : Kind
  size : Nat
  alive : Bool := true
  stash : Nat := 0
  expanded : Bool := false

/-- The state.  `hs` are the references of the caller, 0 if a reference was dropped; `queue` is
`ts->side_effects`; `mem` is device memory, and `top` the next unused address. -/
structure St where
  vars : Nat → Var := fun _ => ⟨.lit 0, 0, false, 0, false⟩
  next : Nat := 1
  hs : List Nat := []
  queue : List Nat := []
  mem : Nat → Arr := fun _ => []
  top : Nat := 1

/-- One step of an evaluation: compute an entry of a variable and store it in the array at an address,
or perform one lane of a scatter. -/
inductive Ev where
  | out (i addr lane : Nat)
  | scat (i lane : Nat)

/-- The parts of the library that are parameters: the LLVM backend is used; reductions into an array
of a given size use `ReduceMode::Expand`; the order in which the lanes of a scatter write, which may
be different in each call; the order of the steps of an evaluation; and the table of local value
numbering. -/
structure Cfg where
  llvm : Bool
  expand : Nat → Bool
  lanes : Nat → Nat → List Nat
  sched : St → List (Nat × Nat) → List Ev
  lvn : St → Kind → Nat → Option Nat

def set {α : Type} (f : Nat → α) (i : Nat) (a : α) : Nat → α := fun j => if j = i then a else f j

def St.kind (s : St) (i : Nat) : Kind := (s.vars i).kind
def St.size (s : St) (i : Nat) : Nat := (s.vars i).size
def St.alive (s : St) (i : Nat) : Bool := (s.vars i).alive

/-- `ref_count`: the number of references of the caller, of the queue of side effects, and of
variables.  That the library keeps this count is proved in `Verif.Var`. -/
def St.refs (s : St) (i : Nat) : Nat :=
  s.hs.count i + s.queue.count i +
    ((List.range s.next).map fun j => if s.alive j then (s.kind j).deps.count i else 0).sum

/-- `ref_count_se`. -/
def St.refsSe (s : St) (i : Nat) : Nat :=
  ((List.range s.next).map fun j => if s.alive j then (s.kind j).depsSe.count i else 0).sum

/-- `is_dirty()` (src/internal.h:376). -/
def St.dirty (s : St) (i : Nat) : Bool := s.refsSe i != 0

/-- Release one variable unless it is referenced (`jitc_var_free`, var.cpp:349-486). -/
def release (s : St) (n : Nat) : St :=
  if s.alive n && s.refs n == 0 && s.refsSe n == 0 then
    { s with vars := set s.vars n { s.vars n with alive := false } }
  else s

/-- Variables without references are released, together with those that become unreferenced thereby.
Operands are older than the variables that refer to them, hence one pass suffices.  The library
does so as soon as the last reference is gone. -/
def collect : Nat → St → St
  | 0, s => s
  | n + 1, s => collect n (release s n)

def St.collect (s : St) : St := Scatter.collect s.next s

/-- A new variable (`jitc_var_new(v, true)`, var.cpp:745-900). -/
def St.fresh (s : St) (k : Kind) (size : Nat) : St × Nat :=
  ({ s with vars := set s.vars s.next ⟨k, size, true, 0, false⟩, next := s.next + 1 }, s.next)

/-- `jitc_var_new()` (var.cpp:745-900). -/
def new (cfg : Cfg) (s : St) (k : Kind) (size : Nat) : St × Nat :=
  match cfg.lvn s k size with
  | some i => (s, i)
  | none => s.fresh k size

/-- A new array in memory (`jitc_var_mem_copy`, var.cpp:1822-1878, `jitc_var_eval_force`,
var.cpp:1543-1580). -/
def St.store (s : St) (a : Arr) (expanded : Bool := false) : St × Nat :=
  ({ s with vars := set s.vars s.next ⟨.data s.top 0, a.length, true, 0, expanded⟩, next := s.next + 1,
            mem := set s.mem s.top a, top := s.top + 1 }, s.next)

/-- Add a reference. -/
def St.give (s : St) (i : Nat) : St := { s with hs := s.hs ++ [i] }

/-! ### What kernels compute -/

/-- The entry of a variable that belongs to a lane.  The first number bounds the depth of the
recursion. -/
def den (vars : Nat → Var) (mem : Nat → Arr) : Nat → Nat → Nat → UInt32
  | 0, _, _ => 0
  | n + 1, i, l =>
    match (vars i).kind with
    | .lit c => c
    | .data a _ => (mem a).getD (if (vars i).size = 1 then 0 else l) 0
    | .op f args => f (args.map fun d => den vars mem n d l)
    | .gather p idx msk =>
      if den vars mem n msk l ≠ 0 then
        (match (vars p).kind with
         | .ptr a _ _ => (mem a).getD (den vars mem n idx l).toNat 0
         | _ => 0)
      else 0
    | _ => 0

/-- One step of an evaluation (`VarKind::Scatter` in llvm_eval.cpp, cuda_eval.cpp, and the stores of
outputs at the end of a kernel).  Operands are computed when the step takes place. -/
def exec (vars : Nat → Var) (mem : Nat → Arr) : Ev → Nat → Arr
  | .out i a l => set mem a ((mem a).set l (den vars mem (i + 1) i l))
  | .scat i l =>
    match (vars i).kind with
    | .scatter op _ p val idx msk =>
      (match (vars p).kind with
       | .ptr a _ _ =>
         if den vars mem i msk l ≠ 0 then
           set mem a (put op (mem a) (den vars mem i idx l).toNat (den vars mem i val l))
         else mem
       | _ => mem)
    | _ => mem

/-! ### Evaluation -/

/-- `is_node()` (src/internal.h:372). -/
def Kind.isNode : Kind → Bool
  | .op _ _ => true
  | .gather _ _ _ => true
  | _ => false

/-- The scheduled variables that are evaluated, with the addresses of their arrays. -/
def outputs (s : St) (l : List Nat) : List (Nat × Nat) :=
  let o := (l.filter fun i => s.alive i && (s.kind i).isNode).eraseDups
  o.zip (List.range' s.top o.length)

/-- New arrays, the contents of which do not matter. -/
def alloc (s : St) (outs : List (Nat × Nat)) : Nat → Arr :=
  outs.foldl (fun m o => set m o.2 (List.replicate (s.size o.1) 0)) s.mem

/-- A scatter into the array of the variable is pending. -/
def St.isTarget (s : St) (t : Nat) : Bool := s.queue.any fun q =>
  match s.kind q with
  | .scatter _ _ p _ _ _ => (match s.kind p with | .ptr _ t' _ => t' == t | _ => false)
  | _ => false

/-- Evaluated variables lose their operands and become arrays in memory (eval.cpp:1188-1210).
Expanded arrays are reduced by a callback of the first scatter, once it was evaluated (op.cpp:3054-3075,
var.cpp:2933-2966). -/
def become (s : St) (outs : List (Nat × Nat)) (i : Nat) : Var :=
  { s.vars i with
    kind := match outs.lookup i with | some a => .data a 0 | none => s.kind i
    expanded := (s.vars i).expanded && !s.isTarget i }

/-- `jitc_eval()` (eval.cpp:979-1218) for the given scheduled variables.  All pending scatters take
place.  Those whose target was released are left out by the library (eval.cpp:157-165). -/
def eval (cfg : Cfg) (s : St) (l : List Nat) : St :=
  let outs := outputs s l
  St.collect { s with
    mem := (cfg.sched s outs).foldl (exec s.vars) (alloc s outs)
    vars := become s outs
    top := s.top + outs.length
    queue := [] }

/-- `jitc_var_eval()` (var.cpp:1653-1728). -/
def varEval (cfg : Cfg) (s : St) (i : Nat) : St :=
  if (s.kind i).isNode || s.dirty i then eval cfg s [i] else s

/-- The pending side effects take place if an operand of a new variable has pending writes
(`jitc_var_new_node_1` to `jitc_var_new_node_4`, var.cpp:1178-1338). -/
def settle (cfg : Cfg) (s : St) (l : List Nat) : St := if l.any s.dirty then eval cfg s [] else s

/-! ### Calls -/

/-- The variable of a reference. -/
def St.ref (s : St) (h : Nat) : Option Nat :=
  match s.hs[h]? with
  | some 0 => none
  | r => r

def St.refAll (s : St) : List Nat → Option (List Nat)
  | [] => some []
  | h :: l => (s.ref h).bind fun i => (s.refAll l).map (i :: ·)

/-- The address of a variable in memory. -/
def St.addr (s : St) (i : Nat) : Nat :=
  match s.kind i with
  | .data a _ => a
  | _ => 0

def St.literal (s : St) (i : Nat) : Option UInt32 :=
  match s.kind i with
  | .lit c => some c
  | _ => none

/-- `jitc_var_data(_, false)` (var.cpp:1582-1612): a variable in memory.  A literal is replaced by a new
array (`jitc_var_eval_force`, var.cpp:1543-1580), which is referenced by the calling function. -/
def dataFor (cfg : Cfg) (s : St) (i : Nat) : St × Nat :=
  match s.kind i with
  | .data _ _ => (s, i)
  | .lit c => ((s.store (List.replicate (s.size i) c)).1.give s.next, s.next)
  | _ => (eval cfg s [i], i)

/-- `jitc_var_copy()` (var.cpp:1880-1926), followed by `jitc_var_data(_, false)` (var.cpp:1582-1612):
a new array in memory with the contents of a variable, which is referenced by the calling function.  A
variable that is not in memory is copied by an operation, which is then evaluated. -/
def copyFor (cfg : Cfg) (s : St) (i : Nat) : St × Nat :=
  match s.kind i with
  | .data a _ => ((s.store ((s.mem a).take (s.size i))).1.give s.next, s.next)
  | .lit c => ((s.store (List.replicate (s.size i) c)).1.give s.next, s.next)
  | _ => (eval cfg ((s.fresh (.op (fun l => l.getD 0 0) [i]) (s.size i)).1.give s.next) [s.next], s.next)

def ROp.isIdentity : ROp → Bool
  | .identity => true
  | _ => false

def ROp.isAdd : ROp → Bool
  | .add => true
  | _ => false

/-- The scatters that have no effect (op.cpp:2961-2977). -/
def skipped (s : St) (t val msk : Nat) (op : ROp) : Bool :=
  ((s.literal t).isSome && s.literal t == s.literal val && op.isIdentity) ||
  s.literal msk == some 0 || (s.literal val == some 0 && op.isAdd)

/-- The target of a scatter in memory, such that it may be modified (op.cpp:2979-3011).
`jitc_var_scatter()` borrows target and index (op.cpp:2901), besides the reference of the caller; the
former does not count here. -/
def ownTarget (cfg : Cfg) (s : St) (t idx : Nat) (op : ROp) (free : Bool) : St × Nat :=
  let s := if s.dirty t && op.isIdentity && !free then eval cfg s [] else s
  if s.refs t + (if idx = t then 1 else 0) > 1 && (s.vars t).stash != 1 then
    copyFor cfg (if s.dirty t then eval cfg s [] else s) t
  else dataFor cfg s t

/-- `jitc_var_expand()` (var.cpp:2866-2931), called by `jitc_var_infer_reduce_mode()`
(op.cpp:2826-2897) before the target is evaluated.  The target is copied into a larger array, which is
reduced after the evaluation; only the result of this is modelled.  The mode of a call is always
`ReduceMode::Auto` here if it is a reduction.  Pending writes do not take place
before the copy.  The exception for an array that is expanded for another operation is not modelled. -/
def expandFor (cfg : Cfg) (s : St) (t : Nat) (op : ROp) : St × Nat :=
  if !op.isIdentity && cfg.expand (s.size t) && !(s.vars t).expanded then
    ((s.store ((s.mem (s.addr t)).take (s.size t)) true).1.give s.next, s.next)
  else (s, t)

/-- The caller replaces reference `h` by the result; `n` is the number of its references. -/
def St.finish (s : St) (n h i : Nat) : St := { s with hs := (s.hs.take n).set h i }

/-- `jitc_var_scatter()` (op.cpp:2899-3086).  The target has pending writes as soon as the pointer
exists (op.cpp:3029).  If an operand has pending writes, then pending side effects take place (here:
before the pointer is created).  `jitc_var_new_node_4()` (var.cpp:1300-1318) then raises an exception
if the value is the target, but not if the mask is; on LLVM, this exception is raised by
`jitc_var_mask_apply()` (var.cpp:2231-2270), which adds another mask.

If the target was expanded by an earlier scatter that takes place in the meantime, then it is no longer
expanded, but the indices of the new scatter refer to the expanded array (op.cpp:2876-2889): what
most threads write is lost. -/
def scatter (cfg : Cfg) (s : St) (h t val idx msk : Nat) (op : ROp) (free : Bool) : St × Out :=
  match common [s.size val, s.size idx, s.size msk] with
  | none => (s, .raise)
  | some n =>
    if skipped s t val msk op then (s, .ok none)
    else
      let (s1, t1) := ownTarget cfg s t idx op free
      let (s2, t2) := expandFor cfg s1 t1 op
      let s3 := if [val, idx, msk].any fun i => s2.dirty i || i == t2 then eval cfg s2 [] else s2
      if val = t2 ∨ (cfg.llvm ∧ msk = t2) then ({ s3 with hs := s3.hs.take s.hs.length }, .raise)
      else if !op.isIdentity && cfg.expand (s3.size t2) && !(s3.vars t2).expanded then
        ({ s3 with hs := s3.hs.take s.hs.length }, .lost)
      else
        let (s4, p) := new cfg s3 (.ptr (s3.addr t2) t2 true) 1
        let (s5, j) := s4.fresh (.scatter op (cfg.lanes s.hs.length n) p val idx msk) n
        (({ s5 with queue := s5.queue ++ [j] }).finish s.hs.length h t2, .ok none)

/-- `jitc_var_gather()` (op.cpp:2103-2256).  The shortcuts for expressions that are computed again are
the subject of `Verif.Gather`; a literal source is handled by an operation here.  Returns the new
variable, or 0. -/
def gather (cfg : Cfg) (s : St) (src idx msk : Nat) : St × Nat × Out :=
  match common [s.size idx, s.size msk] with
  | none => (s, 0, .raise)
  | some n =>
    if s.literal msk = some 0 then
      let (s, j) := new cfg s (.lit 0) n
      (s, j, .ok none)
    else
      let s := settle cfg s [src, idx, msk]
      match s.literal src with
      | some c =>
        let (s, j) := new cfg s (.op (fun l => if l.getD 0 0 ≠ 0 then c else 0) [msk, idx]) n
        (s, j, .ok none)
      | none =>
        if s.size src = 1 then
          let (s, j) := new cfg s (.op (fun l => if l.getD 0 0 ≠ 0 then l.getD 2 0 else 0) [msk, idx, src]) n
          (s, j, .ok none)
        else
          let s := varEval cfg s src
          let (s, p) := new cfg s (.ptr (s.addr src) src false) 1
          let (s, j) := new cfg s (.gather p idx msk) n
          (s, j, .ok none)

/-- `jitc_var_write()` (var.cpp:1760-1783).  The caller owns one reference; the function holds another
one, which does not count here.  The position is checked at the end by the library. -/
def write (cfg : Cfg) (s : St) (h i pos : Nat) (x : UInt32) : St × Out :=
  if pos ≥ s.size i then (s, .raise)
  else
    let s1 := varEval cfg s i
    let (s2, j) := if s1.refs i > 1 then copyFor cfg s1 i else dataFor cfg s1 i
    (({ s2 with mem := set s2.mem (s2.addr j) ((s2.mem (s2.addr j)).set pos x) }).finish s.hs.length h j, .ok none)

/-- `jitc_var_read()` (var.cpp:1729-1757). -/
def read (cfg : Cfg) (s : St) (i pos : Nat) : St × Out :=
  let s := varEval cfg s i
  let pos := if s.size i = 1 then 0 else pos
  if pos ≥ s.size i then (s, .raise)
  else match s.kind i with
    | .lit c => (s, .ok (some c))
    | .data a _ => (s, .ok (some ((s.mem a).getD pos 0)))
    | _ => (s, .raise)

/-- `jitc_var_shrink()` (var.cpp:1966-1997). -/
def shrink (cfg : Cfg) (s : St) (i n : Nat) : St × Nat × Out :=
  if n = 0 ∨ s.size i < n then (s, 0, .raise)
  else if s.size i = n then (s, i, .ok none)
  else match s.kind i with
    | .lit c => let (s, j) := new cfg s (.lit c) n; (s, j, .ok none)
    | _ =>
      let (s, i) := dataFor cfg s i
      let (s, j) := s.fresh (.data (s.addr i) i) n
      (s, j, .ok none)

/-- `jitc_var_stash_ref()` (var.cpp:523-534); the count is truncated to 16 bits. -/
def stash (s : St) (i : Nat) : St :=
  if (s.vars i).stash ≠ 0 then s
  else { s with vars := set s.vars i { s.vars i with stash := s.refs i % 2 ^ 16 } }

/-- `jitc_var_unstash_ref()` (var.cpp:537-550). -/
def unstash (s : St) (i : Nat) : St := { s with vars := set s.vars i { s.vars i with stash := 0 } }

/-- One call, and the variable of the new reference, or 0. -/
def call (cfg : Cfg) (s : St) : Cmd → St × Nat × Out
  | .lit c n => if n = 0 then (s, 0, .raise) else
      let (s, j) := new cfg s (.lit c) n; (s, j, .ok none)
  | .input a => if a = [] then (s, 0, .raise) else
      let (s, j) := s.store a; (s, j, .ok none)
  | .op f args => match s.refAll args with
      | none => (s, 0, .raise)
      | some is => match common (is.map s.size) with
        | none => (s, 0, .raise)
        | some n =>
          let (s, j) := new cfg (settle cfg s is) (.op f is) n
          (s, j, .ok none)
  | .gather src idx msk => match s.ref src, s.ref idx, s.ref msk with
      | some a, some i, some m => gather cfg s a i m
      | _, _, _ => (s, 0, .raise)
  | .scatter t val idx msk op free => match s.ref t, s.ref val, s.ref idx, s.ref msk with
      | some a, some v, some i, some m => let (s, o) := scatter cfg s t a v i m op free; (s, 0, o)
      | _, _, _, _ => (s, 0, .raise)
  | .write h pos x => match s.ref h with
      | some i => let (s, o) := write cfg s h i pos x; (s, 0, o)
      | none => (s, 0, .raise)
  | .dup h => match s.ref h with
      | some i => (s, i, .ok none)
      | none => (s, 0, .raise)
  | .drop h => match s.ref h with
      | some _ => ({ s with hs := s.hs.set h 0 }, 0, .ok none)
      | none => (s, 0, .raise)
  | .eval l => (eval cfg s (l.filterMap s.ref), 0, .ok none)
  | .read h pos => match s.ref h with
      | some i => let (s, o) := read cfg s i pos; (s, 0, o)
      | none => (s, 0, .raise)
  | .shrink h n => match s.ref h with
      | some i => shrink cfg s i n
      | none => (s, 0, .raise)
  | .stash h => match s.ref h with
      | some i => (stash s i, 0, .ok none)
      | none => (s, 0, .raise)
  | .unstash h => match s.ref h with
      | some i => (unstash s i, 0, .ok none)
      | none => (s, 0, .raise)

/-- A sequence of calls, with what they return. -/
def calls (cfg : Cfg) : List Cmd → St → St × List Out
  | [], s => (s, [])
  | c :: l, s =>
    let (s, j, o) := call cfg s c
    let (s, os) := calls cfg l (s.give j).collect
    (s, o :: os)

/-! ### What is assumed about the parameters -/

/-- The steps of an evaluation, in an arbitrary order. -/
def events (s : St) (outs : List (Nat × Nat)) : List Ev :=
  outs.flatMap (fun o => (List.range (s.size o.1)).map (Ev.out o.1 o.2)) ++
  s.queue.flatMap fun q =>
    match s.kind q with
    | .scatter _ ord _ _ _ _ => ord.map (Ev.scat q)
    | _ => []

/-- The step belongs to a given scatter. -/
def Ev.isScat (q : Nat) : Ev → Bool
  | .scat i _ => i == q
  | _ => false

/-- All lanes of a scatter write, in any order.  The steps of an evaluation may be interleaved in any
way.  Only LLVM expands arrays (op.cpp:2846-2854).  Local value numbering only finds variables of the same kind and size. -/
structure CfgOK (cfg : Cfg) : Prop where
  expand : ∀ n, cfg.expand n = true → cfg.llvm = true
  lanes : ∀ k n, (cfg.lanes k n).Perm (List.range n)
  sched : ∀ s outs, (cfg.sched s outs).Perm (events s outs)
  order : ∀ s outs, s.queue.Nodup → ∀ q ∈ s.queue, ∀ op ord p v i m, s.kind q = .scatter op ord p v i m →
    (cfg.sched s outs).filter (Ev.isScat q) = ord.map (Ev.scat q)
  lvn : ∀ s k n i, cfg.lvn s k n = some i → s.alive i = true ∧ s.kind i = k ∧ s.size i = n

end Verif.Scatter
