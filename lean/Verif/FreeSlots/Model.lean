/-!
# Model of `src/free_slots.h`

`FreeSlots` recycles indices (of variables, registry entries, ...).  It stores a
bitmap in 64-bit words, a cursor (lowest word that may contain a free bit) and the
number of free slots.
-/
namespace Verif.FreeSlots

/-- `struct FreeSlots` (src/free_slots.h:26-29).  `count` is a `size_t`; it is modelled
as an unbounded number (it never exceeds the number of bits stored in `words`). -/
structure FreeSlots where
  words  : List (BitVec 64) := []
  cursor : Nat := 0
  count  : Nat := 0
deriving Repr, DecidableEq

/-- `empty()` (src/free_slots.h:31). -/
def FreeSlots.empty (s : FreeSlots) : Bool := s.count == 0

/-- `words.resize(w + 1, 0)` guarded by `w >= words.size()` (src/free_slots.h:36-37). -/
def growTo (ws : List (BitVec 64)) (w : Nat) : List (BitVec 64) :=
  if w ≥ ws.length then ws ++ List.replicate (w + 1 - ws.length) 0#64 else ws

/-- `push(i)` (src/free_slots.h:34-41). -/
def FreeSlots.push (s : FreeSlots) (i : Nat) : FreeSlots :=
  let w := i / 64
  let ws := growTo s.words w
  { words  := ws.set w (ws.getD w 0#64 ||| (1#64 <<< (i % 64)))
    cursor := min s.cursor w
    count  := s.count + 1 }

/-- The loop `while (words[cursor] == 0) cursor++` (src/free_slots.h:44-45).  Reading past
the end of the vector is undefined behaviour, modelled by `none`. -/
def scan (ws : List (BitVec 64)) (c : Nat) : Option Nat :=
  if h : c < ws.length then
    if ws[c] = 0#64 then scan ws (c + 1) else some c
  else none
termination_by ws.length - c

/-- `pop()` (src/free_slots.h:43-50).  `tzcnt_u64` (lines 12-20) is the number of trailing
zero bits; `count--` on zero wraps in C++, which can only happen together with the
out-of-bounds scan or a corrupted count, see the invariant.  The returned
index is a `uint32_t`.  `none` is undefined behaviour. -/
def FreeSlots.pop (s : FreeSlots) : Option (Nat × FreeSlots) :=
  match scan s.words s.cursor with
  | none => none
  | some c =>
    let bits := s.words.getD c 0#64
    some ((c * 64 + bits.ctz.toNat) % 2 ^ 32,
      { words := s.words.set c (bits &&& (bits - 1#64)), cursor := c, count := s.count - 1 })

/-- Calls made by the users of the class. -/
inductive Op where
  | push (i : Nat)
  | pop
  | isEmpty
deriving Repr, DecidableEq

/-- Observable results. -/
inductive Out where
  | unit
  | idx (i : Nat)
  | bool (b : Bool)
deriving Repr, DecidableEq

def FreeSlots.step (s : FreeSlots) : Op → Option (Out × FreeSlots)
  | .push i => some (.unit, s.push i)
  | .pop => match s.pop with
    | none => none
    | some (i, s') => some (.idx i, s')
  | .isEmpty => some (.bool s.empty, s)

/-- Run a history; `none` if one of the calls has undefined behaviour. -/
def FreeSlots.run (s : FreeSlots) : List Op → Option (List Out)
  | [] => some []
  | o :: os => match s.step o with
    | none => none
    | some (r, s') => (FreeSlots.run s' os).map (r :: ·)

end Verif.FreeSlots
