import Verif.Atomic.Lang

/-!
# Scatter operations of the LLVM backend

Models the LLVM functions that `/repo/src/llvm_scatter.cpp` generates: reductions
(`reduce_*_atomic`, `reduce_*_atomic_local`), `reduce_inc_u32`, and the loops of
`jitc_llvm_render_scatter_exch` and `jitc_llvm_render_scatter_cas`.

Vectors are functions of the lane number; lanes `0 .. w-1` exist.  Memory consists of whole elements, each
at its address.  Values of the type `ptr` are addresses below `2^64`.
-/
namespace Verif.Atomic

variable {V : Type}

/-- Arguments of one execution of the generated code (one packet of `w` lanes): indices of the
entries, values and mask -/
structure Packet (V : Type) where
  index : Nat → Nat
  val : Nat → V
  mask : Nat → Bool

/-- op.cpp:1901-1917 `jitc_scatter_gather_index`: the index has 64 bits if the array has more than
`2^31 - 1` entries, else 32 bits.  `getelementptr` (llvm_scatter.cpp:26, 516, 526, 590, 664) regards it
as a signed number. -/
def gep (base tsize size index : Nat) : Nat :=
  let i := if size > 0x7fffffff then index
    else if index < 2 ^ 31 then index else index + (2 ^ 64 - 2 ^ 32)
  (base + tsize * i) % 2 ^ 64

/-- A scatter target: address, size of the elements (`2^shift` bytes) and number of entries -/
structure Target where
  base : Nat
  shift : Nat
  size : Nat

/-- Pointers of the lanes of a packet -/
def Target.ptr (t : Target) (p : Packet V) (i : Nat) : Nat := gep t.base (2 ^ t.shift) t.size (p.index i)

/-- Instructions for a reduction.  `skip`: comparison of the current and the new value
(llvm_scatter.cpp:70-76) for minima and maxima.  `ne`: comparison with the neutral element
(llvm_scatter.cpp:238). -/
structure Red (V : Type) where
  op : V → V → V
  id : V
  skip : Option (V → V → Bool)
  ne : V → V → Bool

/-- llvm_scatter.cpp:32-56 `jitc_llvm_atomicrmw_name` (and 87-171 `jitc_llvm_vector_reduce_config`) for
integers: `atomicrmw add/min/umin/max/umax/and/or` -/
def intOp {n : Nat} (signed : Bool) : IntOp → BitVec n → BitVec n → BitVec n
  | .add => fun a b => a + b
  | .min => fun a b => if signed then (if b.slt a then b else a) else if b.ult a then b else a
  | .max => fun a b => if signed then (if a.slt b then b else a) else if a.ult b then b else a
  | .and => fun a b => a &&& b
  | .or => fun a b => a ||| b

/-- var.cpp:2641-2652 `jitc_reduce_identity` with the tables `type_min`, `type_max`, `type_all_ones`
(var.cpp:140-165) for integers with `n` bits -/
def intIdentity {n : Nat} (signed : Bool) : IntOp → BitVec n
  | .add => 0
  | .or => 0
  | .and => BitVec.allOnes n
  | .min => if signed then BitVec.intMax n else BitVec.allOnes n
  | .max => if signed then BitVec.intMin n else 0

/-- The comparisons `icmp sle/ule/sge/uge` of `jitc_llvm_render_atomic` (llvm_scatter.cpp:70-76) -/
def intSkip {n : Nat} (signed : Bool) : IntOp → Option (BitVec n → BitVec n → Bool)
  | .min => some fun cur x => if signed then cur.sle x else cur.ule x
  | .max => some fun cur x => if signed then x.sle cur else x.ule cur
  | _ => none

/-- Instructions of a reduction of integers; `icmp ne` is llvm_scatter.cpp:238. -/
def intRed (n : Nat) (signed : Bool) (op : IntOp) : Red (BitVec n) :=
  { op := intOp signed op, id := intIdentity signed op, skip := intSkip signed op, ne := fun a b => decide (a ≠ b) }

/-- llvm_scatter.cpp:62-86 `jitc_llvm_render_atomic`; `next` is where the control flow continues -/
def atomic {A : Type} (r : Red V) (l : Nat) (x : V) (next : Act V A) : Act V A :=
  match r.skip with
  | none => .rmw l (fun v => r.op v x) fun _ => next
  | some s => .load l fun cur => if s cur x then next else .rmw l (fun v => r.op v x) fun _ => next

/-- llvm_scatter.cpp:199-215: the loop of `reduce_*_atomic`, `n` iterations before the last one -/
def directLoop (r : Red V) (ptr : Nat → Nat) (val : Nat → V) (mask : Nat → Bool) (w : Nat) : Nat → Act V Unit
  | 0 => .pure ()
  | n + 1 =>
    let index := w - (n + 1)
    if mask index then atomic r (ptr index) (val index) (directLoop r ptr val mask w n)
    else directLoop r ptr val mask w n

/-- llvm_scatter.cpp:177-230 `jitc_llvm_append_reduce_op_direct` -/
def direct (r : Red V) (t : Target) (w : Nat) (p : Packet V) : Act V Unit :=
  directLoop r (t.ptr p) p.val p.mask w w

/-- llvm_scatter.cpp:268-270, 288-290: the part of an address that is compared -/
def ptrlo (shift p : Nat) : Nat := p / 2 ^ shift % 2 ^ 32

/-- Is some lane active (llvm_scatter.cpp:277-278)? -/
def anyLane (w : Nat) (active : Nat → Bool) : Bool := (List.range w).any active

/-- llvm_scatter.cpp:292-295: combines the values of the lanes whose address looks like that of lane
`index`.  `lo` is `%ptrlo_3`. -/
def redOut (r : Red V) (lo : Nat → Nat) (val : Nat → V) (w x : Nat) : V :=
  (List.range w).foldl (fun acc j => r.op acc (if x ≠ lo j then r.id else val j)) r.id

/-- llvm_scatter.cpp:273-307: the loop of `reduce_*_atomic_local`; `n` lanes have not been visited.  When
all have been visited, `%bit` is zero, and the loop would not end if there was an active lane. -/
def localLoop (r : Red V) (shift : Nat) (ptr lo : Nat → Nat) (val : Nat → V) (w : Nat) : Nat → (Nat → Bool) → Act V Unit
  | 0, active => if anyLane w active then .ub else .pure ()
  | n + 1, active =>
    if anyLane w active then
      let index := w - (n + 1)
      if active index then
        let x := ptrlo shift (ptr index)
        atomic r (ptr index) (redOut r lo val w x)
          (localLoop r shift ptr lo val w n fun j => active j && decide (x ≠ lo j))
      else localLoop r shift ptr lo val w n active
    else .pure ()

/-- llvm_scatter.cpp:232-325 `jitc_llvm_append_reduce_op_local` -/
def local_ (r : Red V) (t : Target) (w : Nat) (p : Packet V) : Act V Unit :=
  localLoop r t.shift (t.ptr p) (fun i => if p.mask i then ptrlo t.shift (t.ptr p i) else 0) p.val w w
    fun i => r.ne r.id (p.val i) && p.mask i

/-! ### Increments -/

/-- The intrinsic `llvm.cttz.i32` for arguments other than zero -/
def cttz (x : BitVec 32) : Nat := ((List.range 32).find? fun i => x.getLsbD i).getD 32

/-- llvm_scatter.cpp:554-564: the loop `L3`; result: `%out_2_next` and `%accum_next`.  The first
argument bounds the number of iterations (an iteration clears one of 32 bits). -/
def incCount : Nat → BitVec 32 → Nat → (Nat → BitVec 32) → Option ((Nat → BitVec 32) × Nat)
  | 0, _, _, _ => none
  | n + 1, active, accum, out =>
    if active = 0 then none
    else
      let index := cttz active
      let active' := active ^^^ (1#32 <<< index)
      let out' := fun j => if j = index then BitVec.ofNat 32 accum else out j
      if active' = 0 then some (out', accum + 1) else incCount n active' (accum + 1) out'

/-- `<w x i1>` as a number with 32 bits (llvm_scatter.cpp:550-551) -/
def maskBits (w : Nat) (b : Nat → Bool) : BitVec 32 :=
  (List.range w).foldl (fun x j => if b j then x ||| (1#32 <<< j) else x) 0

/-- The intrinsic `llvm.vector.reduce.umax` -/
def umax (w : Nat) (x : Nat → Nat) : Nat := (List.range w).foldl (fun m j => max m (x j)) 0

/-- llvm_scatter.cpp:540-572: the loop `L1`.  The first argument bounds the number of iterations (an
iteration finishes at least one of `w` lanes). -/
def incLoop (w : Nat) : Nat → (Nat → Nat) → (Nat → BitVec 32) → Act (BitVec 32) (Nat → BitVec 32)
  | 0, _, _ => .ub
  | n + 1, ptrs, out =>
    let ptr := umax w ptrs
    if ptr = 0 then .pure out
    else
      match incCount 32 (maskBits w fun j => decide (ptr = ptrs j)) 0 out with
      | none => .ub
      | some (out2, accum) =>
        .rmw ptr (fun v => v + BitVec.ofNat 32 accum) fun prev =>
          incLoop w n (fun j => if ptr = ptrs j then 0 else ptrs j)
            fun j => if ptr = ptrs j then prev + out2 j else out j

/-- llvm_scatter.cpp:524-579 `jitc_llvm_render_scatter_inc` -/
def inc (t : Target) (w : Nat) (p : Packet (BitVec 32)) : Act (BitVec 32) (Nat → BitVec 32) :=
  incLoop w (w + 1) (fun i => if p.mask i then t.ptr p i else 0) fun _ => 0

/-! ### Exchange, compare and exchange -/

/-- llvm_scatter.cpp:588-648: the loop of `jitc_llvm_render_scatter_exch`, `n` lanes have not been
visited.  If the mask is a literal (`unmasked`), then the code does not test the loop variable and
continues with lanes that do not exist (the LLVM code also refers to a block that does not exist). -/
def exchLoop (zero : V) (unmasked : Bool) (ptr : Nat → Nat) (val : Nat → V) (mask : Nat → Bool) (w : Nat) :
    Nat → (Nat → V) → Act V (Nat → V)
  | 0, out => if unmasked then .ub else .pure out
  | n + 1, out =>
    let i := w - (n + 1)
    if unmasked || mask i then
      .rmw (ptr i) (fun _ => val i) fun old =>
        exchLoop zero unmasked ptr val mask w n fun j => if j = i then old else out j
    else exchLoop zero unmasked ptr val mask w n fun j => if j = i then zero else out j

/-- llvm_scatter.cpp:581-651 `jitc_llvm_render_scatter_exch` -/
def exch (zero : V) (unmasked : Bool) (t : Target) (w : Nat) (p : Packet V) : Act V (Nat → V) :=
  exchLoop zero unmasked (t.ptr p) p.val p.mask w w fun _ => zero

/-- llvm_scatter.cpp:662-742: the loop of `jitc_llvm_render_scatter_cas`; `val` are the values that are
compared and the new values.  See `exchLoop`. -/
def casLoop [DecidableEq V] (zero : V) (unmasked : Bool) (ptr : Nat → Nat) (cmp val : Nat → V) (mask : Nat → Bool) (w : Nat) :
    Nat → (Nat → V) × (Nat → Bool) → Act V ((Nat → V) × (Nat → Bool))
  | 0, out => if unmasked then .ub else .pure out
  | n + 1, out =>
    let i := w - (n + 1)
    if unmasked || mask i then
      .rmw (ptr i) (fun v => if v = cmp i then val i else v) fun old =>
        casLoop zero unmasked ptr cmp val mask w n
          (fun j => if j = i then old else out.1 j, fun j => if j = i then decide (old = cmp i) else out.2 j)
    else
      casLoop zero unmasked ptr cmp val mask w n
        (fun j => if j = i then zero else out.1 j, fun j => if j = i then false else out.2 j)

/-- llvm_scatter.cpp:653-745 `jitc_llvm_render_scatter_cas` -/
def cas [DecidableEq V] (zero : V) (unmasked : Bool) (t : Target) (w : Nat) (cmp : Nat → V) (p : Packet V) :
    Act V ((Nat → V) × (Nat → Bool)) :=
  casLoop zero unmasked (t.ptr p) cmp p.val p.mask w w (fun _ => zero, fun _ => false)

/-! ### Kernels -/

/-- The packets that a thread of the kernel processes, one after another -/
def kernel {V A P : Type} (code : P → Act V A) (threads : List (List P)) : List (Act V (List A)) :=
  threads.map fun ps => Act.seq (ps.map code)

end Verif.Atomic
