import Mathlib.Data.List.Forall2

/-!
# Frozen functions: what they have to compute

A *trace* is the sequence of backend calls that a function performs when it is
executed directly: kernel launches, fills, copies, reductions, ..., and the
release of arrays that are no longer referenced.  Arrays are identified by
*names*; a name stands for one array from its allocation to its release.  The
declarations below fix the meaning of a trace (`run`): what the arrays contain
after the calls were executed directly, one after the other.  Nothing in this
file refers to the recorder or to the replay of a recording.

Array contents are lists of *cells*.  A cell is a byte, an undefined byte
(memory that was allocated but not written) or the `k`-th byte of a pointer to
another array (such pointers are stored in the parameter blocks of indirect
calls).  The numerical value of an address is not part of the contents.

Kernels are arbitrary functions of the launch size and of the contents of all
arrays that they can reach: those that are passed as parameters, and those that
such parameters point to.  They can modify all of these arrays.  The remaining
backend calls (reductions, compression, ...) are arbitrary functions from the
bytes that they read to the bytes that they write.
-/

namespace Verif.Freeze

/-! ## Memory contents -/

/-- One byte of memory: a value, undefined, or part of a pointer to `t`. -/
inductive Cell (α : Type) where
  | byte (b : Nat)
  | undef
  | ref (t : α) (k : Nat)
deriving DecidableEq, Repr

variable {α : Type}

/-- The numerical value of a cell, if it has one that does not depend on
addresses. -/
def Cell.data : Cell α → Option Nat
  | .byte b => some b
  | .undef => none
  | .ref _ _ => none

def Cell.ofData : Option Nat → Cell α
  | some b => .byte b
  | none => .undef

/-- Cut or pad to `n` cells. -/
def fit (n : Nat) (cs : List (Cell α)) : List (Cell α) :=
  (cs ++ List.replicate n Cell.undef).take n

/-- The little-endian bytes of a number. -/
def le : Nat → Nat → List Nat
  | 0, _ => []
  | n + 1, v => v % 256 :: le n (v / 256)

/-- The arrays that a list of cells points to. -/
def refsOf (cs : List (Cell α)) : List α :=
  cs.filterMap fun | .ref t _ => some t | _ => none

/-- Size of the elements of a type in bytes, and of `VarType::Void`, ... (0). -/
def typeSize (vt : Nat) : Nat :=
  [0, 1, 0, 1, 1, 2, 2, 4, 4, 8, 8, 8, 0, 2, 4, 8].getD vt 0

/-! ## Kernels

A kernel receives the list of the arrays that it can reach (each of them once),
so that it observes whether two of its parameters are the same array.  Pointers
to these arrays are represented by positions in this list, so that the kernel
does not observe addresses. -/

/-- The first occurrence of every element. -/
def uniq [DecidableEq α] : List α → List α
  | [] => []
  | x :: xs => x :: (uniq xs).filter (fun y => decide (y ≠ x))

/-- Position of the first occurrence of `x`. -/
def pos [DecidableEq α] (x : α) : List α → Nat
  | [] => 0
  | y :: ys => if y = x then 0 else pos x ys + 1

/-- Replace pointers by positions. -/
def canon [DecidableEq α] (vs : List α) : Cell α → Cell Nat
  | .byte b => .byte b
  | .undef => .undef
  | .ref t k => if t ∈ vs then .ref (pos t vs) k else .undef

/-- Replace positions by pointers. -/
def uncanon (vs : List α) : Cell Nat → Cell α
  | .byte b => .byte b
  | .undef => .undef
  | .ref i k => match vs[i]? with
    | some t => .ref t k
    | none => .undef

/-- A kernel: given the positions of its parameters and the contents of the
arrays that it can reach, the new contents of those arrays that it writes. -/
abbrev KernelFn := List Nat → List (List (Cell Nat)) → List (Option (List (Cell Nat)))

/-- The new contents of one array: its size does not change. -/
def written (vs : List α) (old : List (Cell α)) : Option (List (Cell Nat)) → List (Cell α)
  | none => old
  | some new => fit old.length (new.map (uncanon vs))

/-- Execute a kernel with parameters `ps` in a memory `get`: the new contents of
all arrays that it can reach.  The result is `none` if one of these arrays does
not exist. -/
def callKernel [DecidableEq α] (f : KernelFn) (get : α → Option (List (Cell α)))
    (ps : List α) : Option (List (α × List (Cell α))) :=
  (ps.mapM get).bind fun cs =>
    let vs := uniq (ps ++ cs.flatMap refsOf)
    (vs.mapM get).bind fun contents =>
      let res := f (ps.map fun p => pos p vs) (contents.map fun c => c.map (canon vs))
      some ((vs.zip contents).zipIdx.map fun e =>
        (e.1.1, written vs e.1.2 ((res[e.2]?).join)))

/-! ## Backend calls -/

/-- The remaining backend calls, with the numbers that they depend on. -/
inductive Prim where
  | compress (size : Nat)
  | perm (size blockSize buckets : Nat)
  | offsets (size blockSize buckets : Nat)
  | blockReduce (vt rop size blockSize : Nat)
  | prefixReduce (vt rop size blockSize : Nat) (exclusive reverse : Bool)
  | reduceBool (rop size : Nat)
  | dot (vt size : Nat)
  | gemm (vt flags M N K : Nat) (batch : List (Nat × Bool × Bool))
deriving DecidableEq, Repr

/-- The functions that the kernels and the other backend calls compute. -/
structure Sem where
  /-- kernel `k`, launched with `n` threads -/
  kernel : (k n : Nat) → KernelFn
  prim : Prim → List (List (Option Nat)) → List (Option Nat)
  /-- number of indices that compressing a mask produces -/
  count : List (Option Nat) → Nat

/-- How a kernel uses a parameter: it reads the elements of an array, receives a
pointer to an array, or stores the elements of a new array. -/
inductive PKind where
  | direct | pointer | output
deriving DecidableEq, Repr

/-- A kernel parameter: an array with `size` elements of type `vt`.  The elements
of new arrays consist of `count` values each (1 unless they are local arrays). -/
structure Param where
  kind : PKind
  arr : Nat
  vt : Nat
  size : Nat := 0
  count : Nat := 1
deriving DecidableEq, Repr

/-- An entry of a parameter block: a number with `size` bytes, a pointer to an
array, or the first `size` bytes of an array. -/
inductive Entry where
  | lit (off size value : Nat)
  | ptr (off arr : Nat)
  | val (off arr size : Nat)
deriving DecidableEq, Repr

inductive Cmd where
  /-- launch kernel `k` with `n` threads -/
  | launch (k n : Nat) (ps : List Param)
  /-- fill `x` with `size` copies of an element of `isize` bytes -/
  | memset (x size isize value : Nat)
  /-- copy `bytes` bytes from the beginning of `src` to the beginning of `dst` -/
  | memcpy (dst src bytes : Nat)
  /-- the synchronous version of this call -/
  | memcpySync (dst src bytes : Nat)
  /-- store the indices of the nonzero elements of the mask `src` in `out` -/
  | compress (src size out : Nat)
  | mkperm (src size blockSize buckets perm offs : Nat)
  | blockReduce (vt rop size blockSize src out : Nat)
  | prefixReduce (vt rop size blockSize : Nat) (exclusive reverse : Bool) (src out : Nat)
  | reduceBool (rop size src out : Nat)
  | dot (vt x y size out : Nat)
  /-- `batch`: extents, and whether the operands vary along this dimension -/
  | gemm (vt flags M N K grid : Nat) (batch : List (Nat × Bool × Bool)) (A B C : Nat)
  /-- build a parameter block with `total` bytes -/
  | aggregate (dst total : Nat) (es : List Entry)
  /-- store the number of elements of `src` in the array `out` -/
  | opaqueWidth (src vt size out : Nat)
  /-- allocate an array without initializing it -/
  | undef (x vt size : Nat)
  | barrier
  /-- release an array -/
  | free (x : Nat)
deriving DecidableEq, Repr

/-! ## Direct execution -/

/-- An array: the contents of its memory, the part of it (in bytes) that belongs
to the array, and the type of its elements (`none` if the memory was
filled by a call that was only told the size of the elements). -/
structure Buf where
  cells : List (Cell Nat)
  len : Nat
  vt : Option Nat
deriving DecidableEq, Repr

structure Mem where
  buf : Nat → Option Buf
  dead : Nat → Bool

def Mem.set (m : Mem) (x : Nat) (b : Buf) : Mem :=
  { m with buf := fun y => if y = x then some b else m.buf y }

def Mem.get (m : Mem) (x : Nat) : Option (List (Cell Nat)) := (m.buf x).map (·.cells)

/-- Read the first `n` bytes; `none` if there are fewer. -/
def Mem.read (m : Mem) (x n : Nat) : Option (List (Cell Nat)) :=
  (m.get x).bind fun cs => if n ≤ cs.length then some (cs.take n) else none

/-- Allocate a new array. -/
def Mem.new (m : Mem) (x : Nat) (cs : List (Cell Nat)) (len : Nat) (vt : Option Nat) :
    Option Mem :=
  match m.buf x with
  | some _ => none
  | none => if m.dead x then none else some (m.set x { cells := cs, len := len, vt := vt })

/-- Write to the beginning of an array.  If the array does not exist, then it is
allocated with the size of the written data.  `none`: out-of-bounds access. -/
def Mem.put (m : Mem) (x : Nat) (cs : List (Cell Nat)) (vt : Option Nat) : Option Mem :=
  match m.buf x with
  | none => m.new x cs cs.length vt
  | some b =>
    if cs.length ≤ b.cells.length then
      some (m.set x { b with cells := cs ++ b.cells.drop cs.length, vt := vt.or b.vt })
    else none

def dataOf (cs : List (Cell α)) : List (Option Nat) := cs.map Cell.data

/-- The bytes that a call produces. -/
def Sem.bytes (sem : Sem) (p : Prim) (ins : List (List (Option Nat))) (n : Nat) :
    List (Cell α) :=
  fit n ((sem.prim p ins).map Cell.ofData)

/-- The arrays that a kernel launch with `n` threads allocates. -/
def allocOuts (n : Nat) : List Param → Mem → Option Mem
  | [], m => some m
  | p :: ps, m =>
    if p.kind = .output then
      let bytes := n * p.count * typeSize p.vt
      (m.new p.arr (List.replicate bytes .undef) bytes (some p.vt)).bind (allocOuts n ps)
    else allocOuts n ps m

/-- Change the contents of arrays. -/
def storeAll : List (Nat × List (Cell Nat)) → Mem → Mem
  | [], m => m
  | (x, cs) :: ws, m =>
    storeAll ws (match m.buf x with
      | some b => m.set x { b with cells := cs }
      | none => m)

/-- Replace the part of `cs` that begins at `off`; `none` if this exceeds `cs`. -/
def patch (cs : List (Cell α)) (off : Nat) (new : List (Cell α)) : Option (List (Cell α)) :=
  if off + new.length ≤ cs.length then
    some (cs.take off ++ new ++ cs.drop (off + new.length))
  else none

/-- The bytes of an entry of a parameter block. -/
def entryCells (m : Mem) : Entry → Option (Nat × List (Cell Nat))
  | .lit off size v => some (off, (le size v).map .byte)
  | .ptr off x => if (m.buf x).isSome then some (off, (List.range 8).map (.ref x)) else none
  | .val off x size => (m.read x size).map fun cs => (off, cs)

def buildBlock (m : Mem) : List Entry → List (Cell Nat) → Option (List (Cell Nat))
  | [], cs => some cs
  | e :: es, cs =>
    (entryCells m e).bind fun w => (patch cs w.1 w.2).bind (buildBlock m es)

/-- Number of elements of a matrix operand. -/
def operandSize (base : Nat) (batch : List (Nat × Bool × Bool)) (sel : Bool × Bool → Bool) : Nat :=
  base * ((batch.filter fun d => sel d.2).map (·.1)).foldr (· * ·) 1

/-- The effect of one call.  `none`: the call accesses an array that does not
exist, or exceeds its bounds. -/
def exec (sem : Sem) (m : Mem) : Cmd → Option Mem
  | .launch k n ps =>
    (allocOuts n ps m).bind fun m1 =>
      (callKernel (sem.kernel k n) m1.get (ps.map (·.arr))).map fun ws => storeAll ws m1
  | .memset x size isize v =>
    m.put x ((List.replicate size ((le isize v).map Cell.byte)).flatten) none
  | .memcpy dst src bytes | .memcpySync dst src bytes =>
    (m.read src bytes).bind fun cs => m.put dst cs ((m.buf src).bind (·.vt))
  | .compress src size out =>
    (m.read src size).bind fun cs =>
      m.new out (sem.bytes (.compress size) [dataOf cs] (size * 4))
        (min size (sem.count (dataOf cs)) * 4) (some 8)
  | .mkperm src size bs buckets perm offs =>
    (m.read src (size * 4)).bind fun cs =>
      (m.put perm (sem.bytes (.perm size bs buckets) [dataOf cs] (size * 4)) (some 8)).bind
        fun m1 => m1.put offs
          (sem.bytes (.offsets size bs buckets) [dataOf cs] ((buckets * 4 + 1) * 4)) (some 8)
  | .blockReduce vt rop size bs src out =>
    (m.read src (size * typeSize vt)).bind fun cs =>
      m.put out (sem.bytes (.blockReduce vt rop size bs) [dataOf cs]
        ((size + bs - 1) / bs * typeSize vt)) (some vt)
  | .prefixReduce vt rop size bs ex rev src out =>
    (m.read src (size * typeSize vt)).bind fun cs =>
      m.put out (sem.bytes (.prefixReduce vt rop size bs ex rev) [dataOf cs]
        (size * typeSize vt)) (some vt)
  | .reduceBool rop size src out =>
    (m.read src size).bind fun cs =>
      m.put out (sem.bytes (.reduceBool rop size) [dataOf cs] 1) (some 1)
  | .dot vt x y size out =>
    (m.read x (size * typeSize vt)).bind fun cs =>
      (m.read y (size * typeSize vt)).bind fun ds =>
        m.put out (sem.bytes (.dot vt size) [dataOf cs, dataOf ds] (typeSize vt)) (some vt)
  | .gemm vt flags M N K grid batch A B C =>
    (m.read A (operandSize (M * K) batch (·.1) * typeSize vt)).bind fun cs =>
    (m.read B (operandSize (K * N) batch (·.2) * typeSize vt)).bind fun ds =>
      m.put C (sem.bytes (.gemm vt flags M N K batch) [dataOf cs, dataOf ds]
        (grid * M * N * typeSize vt)) (some vt)
  | .aggregate dst total es =>
    (buildBlock m es (List.replicate total .undef)).bind fun cs => m.new dst cs total (some 4)
  | .opaqueWidth src _ size out =>
    (m.buf src).bind fun _ => m.put out ((le 4 size).map .byte) (some 8)
  | .undef x vt size =>
    m.new x (List.replicate (size * typeSize vt) .undef) (size * typeSize vt) (some vt)
  | .barrier => some m
  | .free x => match m.buf x with
    | some _ => some { buf := fun y => if y = x then none else m.buf y,
                       dead := fun y => if y = x then true else m.dead y }
    | none => none

/-- Execute a trace. -/
def run (sem : Sem) : Mem → List Cmd → Option Mem
  | m, [] => some m
  | m, c :: cs => (exec sem m c).bind fun m1 => run sem m1 cs

/-- An array variable: an array, the type with which it is accessed and the
number of its elements. -/
structure Arr where
  arr : Nat
  vt : Nat
  size : Nat
deriving DecidableEq, Repr

/-- What a user sees of an array variable: its type, and its bytes. -/
def seen (m : Mem) (o : Arr) : Option (Nat × List (Option Nat)) :=
  (m.read o.arr (o.size * typeSize o.vt)).map fun cs => (o.vt, dataOf cs)

/-! ## Traces of the same function

A function that is called with other arguments performs the same calls on the
same (logical) arrays.  What can change are sizes.  `Similar` says in which way
they may change so that a recording remains applicable. -/

/-- The largest number of a list, or 0. -/
def largest (l : List Nat) : Nat := l.foldr max 0

/-- Sizes of the arrays whose elements a kernel reads. -/
def directSizes (ps : List Param) : List Nat :=
  (ps.filter fun p => p.kind = .direct).map (·.size)

/-- Sizes of the arrays that a kernel accesses by pointers, if they are a multiple
or a fraction of the launch size `n`. -/
def pointerSizes (n : Nat) (ps : List Param) : List Nat :=
  (ps.filter fun p => p.kind = .pointer ∧ (p.size % n = 0 ∨ n % p.size = 0)).map (·.size)

/-- The size from which the launch size `n` is derived: that of the largest array
that the kernel reads directly, or else of the largest suitable array that it accesses
by a pointer. -/
def basis (n : Nat) (ps : List Param) : Nat :=
  if directSizes ps = [] then largest (pointerSizes n ps) else largest (directSizes ps)

/-- The corresponding size in another execution, with parameters `ps'`. -/
def newBasis (n : Nat) (ps ps' : List Param) : Nat :=
  if directSizes ps = [] then
    largest (((ps.zip ps').filter fun q =>
      q.1.kind = .pointer ∧ q.1.size = basis n ps).map fun q => q.2.size)
  else largest (directSizes ps')

/-- The launch size is a multiple or a fraction of `b`, and changes in proportion
to it, or else it does not change. -/
def Scales (n b n' b' : Nat) : Prop :=
  (b ≠ 0 ∧ (b ∣ n ∨ n ∣ b) ∧ n' * b = n * b') ∨ ((b = 0 ∨ (¬ b ∣ n ∧ ¬ n ∣ b)) ∧ n' = n)

/-- Parameters with the same array and the same type. -/
def SameParam (p p' : Param) : Prop :=
  p.kind = p'.kind ∧ p.arr = p'.arr ∧ p.vt = p'.vt ∧ p.count = p'.count

/-- The block size of a reduction is that of the array in both cases, or fixed. -/
def SameBlocks (size bs size' bs' : Nat) : Prop :=
  (bs = size ∧ bs' = size') ∨ (bs ≠ size ∧ bs' = bs)

inductive Similar : Cmd → Cmd → Prop
  | launch {k n n' : Nat} {ps ps' : List Param} : List.Forall₂ SameParam ps ps' →
      Scales n (basis n ps) n' (newBasis n ps ps') →
      Similar (.launch k n ps) (.launch k n' ps')
  | memset {x size isize v : Nat} : Similar (.memset x size isize v) (.memset x size isize v)
  | memcpy {dst src b b' : Nat} : Similar (.memcpy dst src b) (.memcpy dst src b')
  | compress {src s s' out : Nat} : Similar (.compress src s out) (.compress src s' out)
  | mkperm {src s s' bs buckets perm offs : Nat} :
      Similar (.mkperm src s bs buckets perm offs) (.mkperm src s' bs buckets perm offs)
  | blockReduce {vt rop s bs s' bs' src out : Nat} : SameBlocks s bs s' bs' →
      Similar (.blockReduce vt rop s bs src out) (.blockReduce vt rop s' bs' src out)
  | prefixReduce {vt rop s bs s' bs' : Nat} {ex rev : Bool} {src out : Nat} :
      SameBlocks s bs s' bs' →
      Similar (.prefixReduce vt rop s bs ex rev src out) (.prefixReduce vt rop s' bs' ex rev src out)
  | reduceBool {rop s s' src out : Nat} :
      Similar (.reduceBool rop s src out) (.reduceBool rop s' src out)
  | dot {vt x y s s' out : Nat} : Similar (.dot vt x y s out) (.dot vt x y s' out)
  | gemm {vt flags M N K grid : Nat} {batch : List (Nat × Bool × Bool)} {A B C : Nat} :
      Similar (.gemm vt flags M N K grid batch A B C) (.gemm vt flags M N K grid batch A B C)
  | aggregate {dst total total' : Nat} {es : List Entry} :
      Similar (.aggregate dst total es) (.aggregate dst total' es)
  | opaqueWidth {src vt s s' out : Nat} :
      Similar (.opaqueWidth src vt s out) (.opaqueWidth src vt s' out)
  | undef {x vt size : Nat} : Similar (.undef x vt size) (.undef x vt size)
  | barrier : Similar .barrier .barrier
  | free {x : Nat} : Similar (.free x) (.free x)

/-! ## Calls on whole arrays

The following conditions exclude views of parts of arrays: the numbers of
elements in a call are those of the arrays that it accesses. -/

/-- `x` consists of `size` elements of type `vt`. -/
def Has (m : Mem) (x vt size : Nat) : Prop :=
  ∃ b, m.buf x = some b ∧ size * typeSize vt = b.len ∧ b.len ≤ b.cells.length ∧
    0 < size ∧ size < 2 ^ 32 ∧ 0 < typeSize vt

/-- A call that stores `bytes` bytes creates the array `x`, or replaces all of it. -/
def Target (m : Mem) (x bytes : Nat) : Prop :=
  0 < bytes ∧ (m.buf x = none ∨ ∃ b, m.buf x = some b ∧ b.len = bytes ∧ b.cells.length = bytes)

/-- End of an entry in a parameter block. -/
def Entry.stop : Entry → Nat
  | .lit off size _ => off + size
  | .ptr off _ => off + 8
  | .val off _ size => off + size

def Whole (m : Mem) : Cmd → Prop
  | .launch _ n ps =>
    0 < n ∧ n < 2 ^ 32 ∧
    (∀ p ∈ ps, p.kind ≠ .output → Has m p.arr p.vt p.size) ∧
    (∀ p ∈ ps, p.kind = .output → p.count = 1 ∧ 0 < typeSize p.vt)
  | .memset x size isize _ =>
    Target m x (size * isize) ∧ size < 2 ^ 32
  | .memcpy dst src bytes =>
    (∃ b, m.buf src = some b ∧ b.len = bytes) ∧ Target m dst bytes
  | .memcpySync _ _ _ => False
  | .compress src size _ =>
    Has m src 1 size ∧ size < 2 ^ 30 ∧ ∃ b, m.buf src = some b ∧ b.vt = some 1
  | .mkperm src size _ buckets perm offs =>
    Has m src 8 size ∧ (∃ b, m.buf src = some b ∧ b.vt = some 8) ∧ perm ≠ offs ∧
    Target m perm (size * 4) ∧ Target m offs ((buckets * 4 + 1) * 4) ∧
    buckets * 4 + 1 < 2 ^ 32
  | .blockReduce vt _ size bs src out =>
    Has m src vt size ∧ 0 < bs ∧ bs ∣ size ∧ Target m out (size / bs * typeSize vt)
  | .prefixReduce vt _ size bs _ _ src out =>
    Has m src vt size ∧ 0 < bs ∧ bs ∣ size ∧ Target m out (size * typeSize vt)
  | .reduceBool _ size src out => Has m src 1 size ∧ Target m out 1
  | .dot vt x y size out =>
    Has m x vt size ∧ Has m y vt size ∧ Target m out (typeSize vt)
  | .gemm vt _ M N K grid batch A B C =>
    Has m A vt (operandSize (M * K) batch (·.1)) ∧
    Has m B vt (operandSize (K * N) batch (·.2)) ∧ Target m C (grid * M * N * typeSize vt)
  | .aggregate _ total es =>
    (∀ off x size, Entry.val off x size ∈ es →
      ∃ b vt, m.buf x = some b ∧ b.vt = some vt ∧ typeSize vt = size) ∧
    total = (largest (es.map Entry.stop) + 7) / 8 * 8 ∧ 0 < total
  | .opaqueWidth src vt size out => Has m src vt size ∧ Target m out 4
  | .undef _ vt size => 0 < size ∧ size < 2 ^ 32 ∧ 0 < typeSize vt
  | .barrier => True
  | .free _ => True

/-- `P` holds before every call of a trace. -/
def Along (sem : Sem) (P : Mem → Cmd → Prop) : Mem → List Cmd → Prop
  | _, [] => True
  | m, c :: cs => P m c ∧ ∀ m1, exec sem m c = some m1 → Along sem P m1 cs

/-! ## Addresses -/

/-- The arrays that a call writes as a whole. -/
def Cmd.outs : Cmd → List Nat
  | .launch _ _ ps => (ps.filter fun p => p.kind = .output).map (·.arr)
  | .memset x _ _ _ => [x]
  | .memcpy dst _ _ | .memcpySync dst _ _ => [dst]
  | .compress _ _ out => [out]
  | .mkperm _ _ _ _ perm offs => [perm, offs]
  | .blockReduce _ _ _ _ _ out => [out]
  | .prefixReduce _ _ _ _ _ _ _ out => [out]
  | .reduceBool _ _ _ out => [out]
  | .dot _ _ _ _ out => [out]
  | .gemm _ _ _ _ _ _ _ _ _ C => [C]
  | .aggregate dst _ _ => [dst]
  | .opaqueWidth _ _ _ out => [out]
  | .undef x _ _ => [x]
  | .barrier => []
  | .free _ => []

/-- The arrays that exist after a call. -/
def Cmd.live (live : List Nat) : Cmd → List Nat
  | .free x => live.filter fun y => decide (y ≠ x)
  | c => c.outs ++ live

/-- Distinct arrays of the list have distinct addresses. -/
def Apart (addr : Nat → Nat) (live : List Nat) : Prop :=
  ∀ x ∈ live, ∀ y ∈ live, addr x = addr y → x = y

/-- The numbers of 8 bytes that a call stores in a parameter block. -/
def Cmd.numbers : Cmd → List Nat
  | .aggregate _ _ es => es.filterMap fun | .lit _ 8 v => some v | _ => none
  | _ => []

/-- `addr` is a placement of the arrays of a trace in memory: arrays that exist
at the same time have different addresses (addresses can be reused after an
array was released), and no 8-byte number in a parameter block equals such an address. -/
def Placed (addr : Nat → Nat) : List Nat → List Cmd → Prop
  | live, [] => Apart addr live
  | live, c :: cs =>
    Apart addr (c.outs ++ live) ∧ (∀ v ∈ c.numbers, ∀ x ∈ c.outs ++ live, addr x ≠ v) ∧
      Placed addr (c.live live) cs

end Verif.Freeze
