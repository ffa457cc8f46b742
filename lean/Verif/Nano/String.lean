import Verif.Nano.Vector

/-!
# `drjit::string`

Models the class of `/repo/include/drjit-core/nanostl.h:389-562`, with the members `m_data` (a `unique_ptr<char[]>`, nanostl.h:38-87), `m_size` and `m_capacity`, on the
same heap as `drjit::vector`.  Characters are bytes; in memory, a byte that was never written cannot be read.  The same outcomes of wrong accesses are
distinguished.  The text into which a number is formatted is a parameter (see C29 and C30 for integers).
-/
namespace Verif.Nano.Str

/-- The type of characters -/
abbrev Ch := UInt8

/-- `p[i] = x`, also for memory that was not written so far -/
def store (h : Heap Ch) (p : Option Nat) (i : Nat) (x : Ch) : Option (Heap Ch) :=
  match p with
  | none => none
  | some p => match h.block p with
    | some b => if i < b.cap then some (h.set p (some ⟨b.cap, fun j => if j = i then some x else b.cell j⟩)) else none
    | none => none

/-- `delete[] p` in `unique_ptr::reset` (nanostl.h:65-71) -/
def delete (h : Heap Ch) (p : Option Nat) : Option (Heap Ch) :=
  match p with
  | none => some h
  | some p => if (h.block p).isSome then some (h.set p none) else none

/-- Write consecutive characters -/
def storeList (p : Option Nat) : Nat → List Ch → Heap Ch → Option (Heap Ch)
  | _, [], h => some h
  | i, x :: xs, h => (store h p i x).bind fun h => storeList p (i + 1) xs h

/-- Read `n` consecutive characters -/
def readN (h : Heap Ch) (p : Option Nat) : Nat → Nat → Option (List Ch)
  | _, 0 => some []
  | i, n + 1 => (h.read p i).bind fun x => (readN h p (i + 1) n).map fun xs => x :: xs

/-- A source of characters for `memcpy`: outside of the heap, or at the start of a block -/
inductive Src
  | ext (l : List Ch)
  | mem (p : Option Nat)

/-- `memcpy(dst + i, src, n)`; `none` if the ranges overlap -/
def memcpy (h : Heap Ch) (dst : Option Nat) (i : Nat) (src : Src) (n : Nat) : Option (Heap Ch) :=
  match src with
  | .ext l => if n ≤ l.length then storeList dst i (l.take n) h else none
  | .mem p => if p = dst ∧ i < n then none else (readN h p 0 n).bind fun xs => storeList dst i xs h

/-- `put_unchecked` (nanostl.h:433-445).  The check of the capacity exists only with `NDEBUG`; without it, the write goes beyond the block. -/
def putUnchecked (v : Vec) (src : Src) (n : Nat) (h : Heap Ch) : Option (Vec × Heap Ch) :=
  if n = 0 then some (v, h)
  else (memcpy h v.data v.size src n).bind fun h => (store h v.data (v.size + n) 0).map fun h => ({ v with size := v.size + n }, h)

/-- `grow` (nanostl.h:541-555) -/
def grow (minGrowth : Bool) (v : Vec) (n : Nat) (h : Heap Ch) : Option (Vec × Heap Ch) :=
  let needed := v.size + n
  if needed > v.cap then
    let needed := if minGrowth ∧ needed < v.cap * 2 then v.cap * 2 else needed
    let a := h.alloc (needed + 1)
    (if v.size ≠ 0 then memcpy a.2 (some a.1) 0 (.mem v.data) v.size else some a.2).bind fun h =>
      (store h (some a.1) v.size 0).bind fun h => (delete h v.data).map fun h => (⟨some a.1, v.size, needed⟩, h)
  else some (v, h)

/-- `reserve` (nanostl.h:453-456) -/
def reserve (v : Vec) (n : Nat) (h : Heap Ch) : Option (Vec × Heap Ch) := if n > v.cap then grow false v (n - v.size) h else some (v, h)

/-- `resize` (nanostl.h:458-466) -/
def resize (v : Vec) (n : Nat) (c : Ch) (h : Heap Ch) : Option (Vec × Heap Ch) :=
  (reserve v n h).bind fun r =>
    if r.1.data ≠ none then
      (storeList r.1.data r.1.size (List.replicate (n - r.1.size) c) r.2).bind fun h => (store h r.1.data n 0).map fun h => ({ r.1 with size := n }, h)
    else some ({ r.1 with size := n }, r.2)

/-- `clear` (nanostl.h:468-472) -/
def clear (v : Vec) (h : Heap Ch) : Option (Vec × Heap Ch) :=
  if v.data ≠ none then (store h v.data 0 0).map fun h => ({ v with size := 0 }, h) else some ({ v with size := 0 }, h)

/-- `indent` (nanostl.h:511-519) -/
def indent (v : Vec) (n : Nat) (h : Heap Ch) : Option (Vec × Heap Ch) :=
  if n = 0 then some (v, h)
  else (grow true v n h).bind fun r =>
    (storeList r.1.data r.1.size (List.replicate n 32) r.2).bind fun h => (store h r.1.data (r.1.size + n) 0).map fun h => ({ r.1 with size := r.1.size + n }, h)

/-- `string(const char *, size_t)` (nanostl.h:393-400) -/
def ofBuf (l : List Ch) (h : Heap Ch) : Option (Vec × Heap Ch) :=
  if l.length = 0 then some (Vec.empty, h)
  else
    let a := h.alloc (l.length + 1)
    (memcpy a.2 (some a.1) 0 (.ext l) l.length).bind fun h => (store h (some a.1) l.length 0).map fun h => (⟨some a.1, l.length, l.length⟩, h)

/-- Arguments of `put` -/
inductive Arg
  /-- a literal, a character, or a number: the text and the bound of its formatter, which is at least its length -/
  | text (l : List Ch) (slack : Nat)
  /-- another string -/
  | str (y : Nat)
  /-- `y.c_str()` -/
  | cstr (y : Nat)

/-- An argument after the call was entered: `c_str()` is an address (nanostl.h:530); the terminator of empty strings lies outside of the heap. -/
inductive Val
  | text (l : List Ch) (slack : Nat)
  | str (y : Nat)
  | ptr (p : Option Nat)

def Arg.val (w : World Ch) : Arg → Option Val
  | .text l k => some (.text l k)
  | .str y => (w.obj y).map fun _ => .str y
  | .cstr y => (w.obj y).map fun v => .ptr v.data

/-- `strlen` -/
def strlen (h : Heap Ch) (p : Nat) : Nat → Nat → Option Nat
  | 0, _ => none
  | k + 1, i => (h.read (some p) i).bind fun x => if x = 0 then some i else strlen h p k (i + 1)

/-- `formatter<T>::bound` (nanostl.h:564-680) -/
def Val.bound (w : World Ch) : Val → Option Nat
  | .text l k => some (l.length + k)
  | .str y => (w.obj y).map Vec.size
  | .ptr none => some 0
  | .ptr (some p) => match w.heap.block p with
    | some b => strlen w.heap p b.cap 0
    | none => none

/-- `formatter<T>::format`: the characters come from the string argument as it is now, which may be the target -/
def Val.format (w : World Ch) (x : Nat) (v : Vec) (h : Heap Ch) (bound : Nat) : Val → Option (Vec × Heap Ch)
  | .text l _ => putUnchecked v (.ext l) l.length h
  | .str y => if y = x then putUnchecked v (.mem v.data) bound h else (w.obj y).bind fun u => putUnchecked v (.mem u.data) bound h
  | .ptr p => putUnchecked v (.mem p) bound h

/-- All arguments, one after the other -/
def formatAll (w : World Ch) (x : Nat) : List (Val × Nat) → Vec → Heap Ch → Option (Vec × Heap Ch)
  | [], v, h => some (v, h)
  | a :: as, v, h => (a.1.format w x v h a.2).bind fun r => formatAll w x as r.1 r.2

/-- The bounds of all arguments -/
def bounds (w : World Ch) : List Val → Option (List (Val × Nat))
  | [] => some []
  | a :: as => (a.bound w).bind fun n => (bounds w as).map fun r => (a, n) :: r

/-- The values of all arguments -/
def vals (w : World Ch) : List Arg → Option (List Val)
  | [] => some []
  | a :: as => (a.val w).bind fun v => (vals w as).map fun r => v :: r

/-- `iput` (nanostl.h:490-505) on the string `x` -/
def put (w : World Ch) (x : Nat) (as : List Val) : Option (World Ch) :=
  (w.obj x).bind fun v => (bounds w as).bind fun bs => (grow true v (bs.map Prod.snd).sum w.heap).bind fun r =>
    (formatAll w x bs r.1 r.2).map (w.put x)

/-- Programs: objects are named by numbers -/
inductive Op
  /-- `string()` -/
  | make (x : Nat)
  /-- `string(ptr, size)` -/
  | makeBuf (x : Nat) (l : List Ch)
  /-- `string(const T &)`: from text or another string -/
  | makeFrom (x : Nat) (a : Arg)
  | makeMove (x y : Nat)
  | drop (x : Nat)
  /-- `operator=(const T &)`, `operator=(const string &)` -/
  | assign (x : Nat) (a : Arg)
  | assignMove (x y : Nat)
  /-- `put`, `operator+=` -/
  | put (x : Nat) (as : List Arg)
  | indent (x n : Nat)
  | resize (x n : Nat) (c : Ch)
  | reserve (x n : Nat)
  | clear (x : Nat)
  | swap (x y : Nat)

/-- One operation -/
def step (w : World Ch) : Op → Option (World Ch)
  | .make x => if w.obj x = none then some (w.put x (Vec.empty, w.heap)) else none
  | .makeBuf x l => if w.obj x = none then (ofBuf l w.heap).map (w.put x) else none
  -- nanostl.h:402-404: the members are initialised, then `assign` (the object is empty)
  | .makeFrom x a => if w.obj x = none then (a.val w).bind fun a => put (w.put x (Vec.empty, w.heap)) x [a] else none
  -- nanostl.h:392: the members are initialised, then `operator=(string &&)`
  | .makeMove x y => if w.obj x = none then (w.obj y).map fun v => w.steal x y v w.heap else none
  | .drop x => (w.obj x).bind fun v => (delete w.heap v.data).map fun h => ⟨h, fun y => if y = x then none else w.obj y⟩
  -- `assign` (nanostl.h:417-421)
  | .assign x a => (a.val w).bind fun a => (w.obj x).bind fun v => (clear v w.heap).bind fun r => put (w.put x r) x [a]
  -- nanostl.h:409-415: `unique_ptr::operator=` deletes the old characters
  | .assignMove x y => (w.obj x).bind fun u => (w.obj y).bind fun v => (delete w.heap u.data).map fun h => w.steal x y v h
  | .put x as => (vals w as).bind fun as => put w x as
  | .indent x n => (w.obj x).bind fun v => (indent v n w.heap).map (w.put x)
  | .resize x n c => (w.obj x).bind fun v => (resize v n c w.heap).map (w.put x)
  | .reserve x n => (w.obj x).bind fun v => (reserve v n w.heap).map (w.put x)
  | .clear x => (w.obj x).bind fun v => (clear v w.heap).map (w.put x)
  | .swap x y => (w.obj x).bind fun v => (w.obj y).map fun u => (w.put x (u, w.heap)).put y (v, w.heap)

def run (w : World Ch) : List Op → Option (World Ch)
  | [] => some w
  | o :: os => (step w o).bind fun w => run w os

end Verif.Nano.Str
