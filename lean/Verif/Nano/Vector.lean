/-!
# `drjit::vector`

Models the container of `/repo/include/drjit-core/nanostl.h:97-275` with the heap on which it lives.  Every access of memory is checked: `none` is the outcome of
reading, constructing or destroying an element at an address that does not permit it, or of freeing memory that is not live or has another size.
Failing allocations, exceptions of element constructors and overflow of `size_t` are not modelled.
-/
namespace Verif.Nano

variable {T : Type}

/-- A block of `operator new[]` with space for `cap` elements; `none`: no object lives in the cell -/
structure Block (T : Type) where
  cap : Nat
  cell : Nat → Option T

/-- The heap: live blocks by address, and the next address -/
structure Heap (T : Type) where
  block : Nat → Option (Block T)
  next : Nat

def Heap.set (h : Heap T) (p : Nat) (b : Option (Block T)) : Heap T := { h with block := fun q => if q = p then b else h.block q }

/-- `alloc` (nanostl.h:244-249): also for size 0, a block of its own -/
def Heap.alloc (h : Heap T) (n : Nat) : Nat × Heap T := (h.next, { Heap.set h h.next (some ⟨n, fun _ => none⟩) with next := h.next + 1 })

/-- `operator delete[]` with a size; nothing happens for `nullptr` -/
def Heap.free (h : Heap T) (p : Option Nat) (n : Nat) : Option (Heap T) :=
  match p with
  | none => some h
  | some p => match h.block p with
    | some b => if b.cap = n then some (h.set p none) else none
    | none => none

/-- Read `p[i]` -/
def Heap.read (h : Heap T) (p : Option Nat) (i : Nat) : Option T :=
  match p with
  | none => none
  | some p => match h.block p with
    | some b => if i < b.cap then b.cell i else none
    | none => none

/-- `new (&p[i]) T(x)` in a cell without object -/
def Heap.construct (h : Heap T) (p : Option Nat) (i : Nat) (x : T) : Option (Heap T) :=
  match p with
  | none => none
  | some p => match h.block p with
    | some b => if i < b.cap ∧ b.cell i = none then some (h.set p (some ⟨b.cap, fun j => if j = i then some x else b.cell j⟩)) else none
    | none => none

/-- Assignment of an existing object: `p[i] = x` -/
def Heap.write (h : Heap T) (p : Option Nat) (i : Nat) (x : T) : Option (Heap T) :=
  match p with
  | none => none
  | some p => match h.block p with
    | some b => if i < b.cap ∧ (b.cell i).isSome then some (h.set p (some ⟨b.cap, fun j => if j = i then some x else b.cell j⟩)) else none
    | none => none

/-- `p[i].~T()` -/
def Heap.destroy (h : Heap T) (p : Option Nat) (i : Nat) : Option (Heap T) :=
  match p with
  | none => none
  | some p => match h.block p with
    | some b => if i < b.cap ∧ (b.cell i).isSome then some (h.set p (some ⟨b.cap, fun j => if j = i then none else b.cell j⟩)) else none
    | none => none

/-- The members of `vector` (nanostl.h:270-273) -/
structure Vec where
  data : Option Nat
  size : Nat
  cap : Nat
deriving DecidableEq

def Vec.empty : Vec := ⟨none, 0, 0⟩

/-- `for (; i < i + k; ++i) new (&dst[i]) T(f(i))`: `k` further elements from `i`, where the value may be read from the heap -/
def fill (dst : Option Nat) (f : Heap T → Nat → Option T) : Nat → Nat → Heap T → Option (Heap T)
  | 0, _, h => some h
  | k + 1, i, h => (f h i).bind fun x => (h.construct dst i x).bind fun h => fill dst f k (i + 1) h

/-- The loop of `reserve` (nanostl.h:221-224).  `moved`: what moving from an element leaves behind -/
def moveLoop (moved : T → T) (dst src : Option Nat) : Nat → Nat → Heap T → Option (Heap T)
  | 0, _, h => some h
  | k + 1, i, h => (h.read src i).bind fun x => (h.construct dst i x).bind fun h => (h.write src i (moved x)).bind fun h => moveLoop moved dst src k (i + 1) h

/-- The loop of `clear` (nanostl.h:122-123) -/
def destroyLoop (p : Option Nat) : Nat → Nat → Heap T → Option (Heap T)
  | 0, _, h => some h
  | k + 1, i, h => (h.destroy p i).bind fun h => destroyLoop p k (i + 1) h

/-- nanostl.h:121-125 -/
def clear (v : Vec) (h : Heap T) : Option (Vec × Heap T) := (destroyLoop v.data v.size 0 h).map fun h => ({ v with size := 0 }, h)

/-- `release` (nanostl.h:251-266) -/
def release (v : Vec) (h : Heap T) : Option (Heap T) := (clear v h).bind fun r => r.2.free v.data v.cap

/-- The constructors that allocate memory for `n` elements and construct them (nanostl.h:100-106, 127-148) -/
def build (n : Nat) (f : Heap T → Nat → Option T) (h : Heap T) : Option (Vec × Heap T) :=
  let a := h.alloc n
  (fill (some a.1) f n 0 a.2).map fun h => (⟨some a.1, n, n⟩, h)

/-- nanostl.h:212-226.  The temporary vector is moved into the object, which releases its old memory. -/
def reserve (moved : T → T) (v : Vec) (n : Nat) (h : Heap T) : Option (Vec × Heap T) :=
  if n ≤ v.cap then some (v, h)
  else
    let a := h.alloc n
    (moveLoop moved (some a.1) v.data v.size 0 a.2).bind fun h => (release v h).map fun h => (⟨some a.1, v.size, n⟩, h)

/-- `expand` (nanostl.h:228) -/
def expand (moved : T → T) (v : Vec) (h : Heap T) : Option (Vec × Heap T) := reserve moved v (if v.cap ≠ 0 then v.cap * 2 else 1) h

/-- `push_back` (nanostl.h:163-168), also `emplace_back`.  `f`: reads the argument, which may be a reference into the heap -/
def pushBack (moved : T → T) (v : Vec) (f : Heap T → Option T) (h : Heap T) : Option (Vec × Heap T) :=
  (if v.size = v.cap then expand moved v h else some (v, h)).bind fun r =>
    (f r.2).bind fun x => (r.2.construct r.1.data r.1.size x).map fun h => ({ r.1 with size := r.1.size + 1 }, h)

/-- `pop_back` (nanostl.h:197-200) -/
def popBack (v : Vec) (h : Heap T) : Option (Vec × Heap T) :=
  if v.size = 0 then none else (h.destroy v.data (v.size - 1)).map fun h => ({ v with size := v.size - 1 }, h)

/-- `while (m_size != size) m_data[--m_size].~T()` (nanostl.h:208-209), `k` times -/
def shrink (p : Option Nat) (size : Nat) : Nat → Heap T → Option (Heap T)
  | 0, h => some h
  | k + 1, h => (h.destroy p (size - 1)).bind fun h => shrink p (size - 1) k h

/-- nanostl.h:205-217 -/
def resize (moved : T → T) (v : Vec) (n : Nat) (x : T) (h : Heap T) : Option (Vec × Heap T) :=
  (reserve moved v n h).bind fun r =>
    if r.1.size > n then (shrink r.1.data r.1.size (r.1.size - n) r.2).map fun h => ({ r.1 with size := n }, h)
    else (fill r.1.data (fun _ _ => some x) (n - r.1.size) r.1.size r.2).map fun h => ({ r.1 with size := n }, h)

/-- The loop of `operator==` (nanostl.h:184-195) -/
def eqLoop [DecidableEq T] (h : Heap T) (p q : Option Nat) : Nat → Nat → Option Bool
  | 0, _ => some true
  | k + 1, i => (h.read p i).bind fun x => (h.read q i).bind fun y => if x ≠ y then some false else eqLoop h p q k (i + 1)

def vecEq [DecidableEq T] (h : Heap T) (v w : Vec) : Option Bool :=
  if v.size ≠ w.size then some false else if v.size = 0 then some true else eqLoop h v.data w.data w.size 0

/-- Programs: objects are named by numbers -/
inductive Op (T : Type)
  /-- `vector()` -/
  | make (x : Nat)
  /-- `vector(n, value)`, and `vector(n)` with `T()` -/
  | makeFill (x n : Nat) (a : T)
  /-- `vector(start, end)` for a range outside of the heap of vectors -/
  | makeRange (x : Nat) (l : List T)
  | makeCopy (x y : Nat)
  | makeMove (x y : Nat)
  /-- the destructor -/
  | drop (x : Nat)
  | assignCopy (x y : Nat)
  | assignMove (x y : Nat)
  | push (x : Nat) (a : T)
  /-- `x.push_back(y[i])` -/
  | pushElem (x y i : Nat)
  | pop (x : Nat)
  | set (x i : Nat) (a : T)
  | resize (x n : Nat) (a : T)
  | reserve (x n : Nat)
  | clear (x : Nat)
  | swap (x y : Nat)

/-- The heap and the vectors that exist -/
structure World (T : Type) where
  heap : Heap T
  obj : Nat → Option Vec

def World.put (w : World T) (x : Nat) (r : Vec × Heap T) : World T := ⟨r.2, fun y => if y = x then some r.1 else w.obj y⟩

/-- `vector(vector &&)` and `operator=(vector &&)` after `release` (nanostl.h:107-111, 154-161): first the members of the target are set, then those of the
source -/
def World.steal (w : World T) (x y : Nat) (v : Vec) (h : Heap T) : World T := (w.put x (v, h)).put y (Vec.empty, h)

/-- One operation -/
def World.step (moved : T → T) (w : World T) : Op T → Option (World T)
  | .make x => if w.obj x = none then some (w.put x (Vec.empty, w.heap)) else none
  | .makeFill x n a => if w.obj x = none then (build n (fun _ _ => some a) w.heap).map (w.put x) else none
  | .makeRange x l => if w.obj x = none then (build l.length (fun _ i => l[i]?) w.heap).map (w.put x) else none
  | .makeCopy x y => if w.obj x = none then (w.obj y).bind fun v => (build v.size (fun h i => h.read v.data i) w.heap).map (w.put x) else none
  | .makeMove x y => if w.obj x = none then (w.obj y).map fun v => w.steal x y v w.heap else none
  | .drop x => (w.obj x).bind fun v => (release v w.heap).map fun h => ⟨h, fun y => if y = x then none else w.obj y⟩
  -- nanostl.h:150-152: a temporary copy, which is moved into the object
  | .assignCopy x y => (w.obj y).bind fun v => (w.obj x).bind fun u =>
      (build v.size (fun h i => h.read v.data i) w.heap).bind fun r => (release u r.2).map fun h => w.put x (r.1, h)
  | .assignMove x y => (w.obj x).bind fun u => (w.obj y).bind fun v => (release u w.heap).map fun h => w.steal x y v h
  | .push x a => (w.obj x).bind fun v => (pushBack moved v (fun _ => some a) w.heap).map (w.put x)
  | .pushElem x y i => (w.obj x).bind fun v => (w.obj y).bind fun u => (pushBack moved v (fun h => h.read u.data i) w.heap).map (w.put x)
  | .pop x => (w.obj x).bind fun v => (popBack v w.heap).map (w.put x)
  | .set x i a => (w.obj x).bind fun v => (w.heap.write v.data i a).map fun h => w.put x (v, h)
  | .resize x n a => (w.obj x).bind fun v => (Nano.resize moved v n a w.heap).map (w.put x)
  | .reserve x n => (w.obj x).bind fun v => (Nano.reserve moved v n w.heap).map (w.put x)
  | .clear x => (w.obj x).bind fun v => (Nano.clear v w.heap).map (w.put x)
  | .swap x y => (w.obj x).bind fun v => (w.obj y).map fun u => (w.put x (u, w.heap)).put y (v, w.heap)

def World.run (moved : T → T) (w : World T) : List (Op T) → Option (World T)
  | [] => some w
  | o :: os => (w.step moved o).bind fun w => w.run moved os

end Verif.Nano
