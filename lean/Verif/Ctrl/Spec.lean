/-
Symbolic loops and conditionals (C41, C42): specification.

A program computes arrays of numbers, entry by entry: it is run in every thread ("lane").  It contains conditionals and loops, which may be
nested in any way.  Variables are numbered in the order in which they come into being; a conditional
or loop adds its results to those that exist.
-/

namespace Verif.Ctrl

mutual

/-- A statement.  Operands are given by the number of the variable. -/
inductive Stmt where
  /-- a constant -/
  | lit (c size : Nat)
  /-- an evaluated variable with the entries `x` -/
  | input (x : Nat → Nat) (size : Nat)
  /-- any operation on numbers -/
  | op (f : List Nat → Nat) (args : List Nat)
  /-- `if` variable `c` is not zero `then` the results of `t` `else` the results of `f` -/
  | ite (c : Nat) (t f : Block)
  /-- `while cond do body`, which starts with the variables `state`.  The state follows the other
  variables in `cond` and `body`; `cond` has one result, and the results of `body` are the next
  state.  The results of the loop are its last state. -/
  | loop (state : List Nat) (cond body : Block)

/-- Statements followed by the selection of the results. -/
inductive Block where
  | ret (res : List Nat)
  | seq (s : Stmt) (b : Block)

end

/-- Apply a partial function to the elements of a list. -/
def evalAll {α β : Type} (f : α → Option β) : List α → Option (List β)
  | [] => some []
  | a :: l => (f a).bind fun b => (evalAll f l).map (b :: ·)

/-- The elements at the given positions. -/
def pick {α : Type} (l : List α) (ks : List Nat) : Option (List α) := evalAll (l[·]?) ks

/-- The only element of a list. -/
def one {α : Type} : List α → Option α
  | [x] => some x
  | _ => none

/-- A loop of at most `n` iterations.  `none`: it takes more, or it gets stuck.  If `sp` is set, the
body is run once more in the last state, without effect on the result. -/
def whileN {σ : Type} (sp : Bool) (cond : σ → Option Nat) (body : σ → Option σ) : Nat → σ → Option σ
  | 0, _ => none
  | n + 1, s => (cond s).bind fun b =>
      if b = 0 then (if sp then (body s).map fun _ => s else some s)
      else (body s).bind (whileN sp cond body n)

/-- The entry of an array that belongs to a lane.  There is one entry for all lanes in an array of
size 1. -/
def entry (x : Nat → Nat) (size lane : Nat) : Nat := if size ≤ 1 then x 0 else x lane

mutual

/-- The variables of a lane after a statement.  All loops take at most `n` iterations; `none` if they
take more, or if the program is ill-formed.

If `sp` is set, the lane also executes what it does not need: the other branch of each conditional,
and the body of each loop in the last state.  This has no effect on the results, but it may not end,
in which case the result is `none`. -/
def runS (sp : Bool) (lane n : Nat) : Stmt → List Nat → Option (List Nat)
  | .lit c _, vs => some (vs ++ [c])
  | .input x size, vs => some (vs ++ [entry x size lane])
  | .op f args, vs => (pick vs args).map fun a => vs ++ [f a]
  | .ite c t f, vs => (vs[c]?).bind fun b =>
      if b ≠ 0 then (runB sp lane n t vs).bind fun r =>
        if sp then (runB sp lane n f vs).map fun _ => vs ++ r else some (vs ++ r)
      else (runB sp lane n f vs).bind fun r =>
        if sp then (runB sp lane n t vs).map fun _ => vs ++ r else some (vs ++ r)
  | .loop st cond body, vs => (pick vs st).bind fun s0 =>
      (whileN sp (fun s => (runB sp lane n cond (vs ++ s)).bind one)
        (fun s => runB sp lane n body (vs ++ s)) n s0).map (vs ++ ·)

/-- The results of a block. -/
def runB (sp : Bool) (lane n : Nat) : Block → List Nat → Option (List Nat)
  | .ret res, vs => pick vs res
  | .seq s b, vs => (runS sp lane n s vs).bind (runB sp lane n b)

end

end Verif.Ctrl
