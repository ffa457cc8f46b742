import Verif.Ctrl.Model

/-
Symbolic loops and conditionals: how kernels compute the values.
-/

namespace Verif.Ctrl

/-! ### LLVM: all lanes of a packet at once -/

/-- `llvm.vector.reduce.or` of a vector of conditions. -/
def anyLane (L : List Nat) (b : Nat → Nat) : Bool := L.any fun l => b l ≠ 0

/-- A loop (llvm_eval.cpp:1156-1202).  The state consists of vectors; the loop goes on while the
condition holds in any lane. -/
def whileV (L : List Nat) (cond : List (Nat → Nat) → Option (Nat → Nat))
    (body : List (Nat → Nat) → Option (List (Nat → Nat))) :
    Nat → List (Nat → Nat) → Option (List (Nat → Nat))
  | 0, _ => none
  | n + 1, s => (cond s).bind fun b =>
      if anyLane L b then (body s).bind (whileV L cond body n) else some s

/-- The `phi` variables at the start of an iteration (llvm_eval.cpp:1186-1203). -/
def assignV (ld : LoopData) (s : List (Nat → Nat)) (e : Nat → Nat → Nat) : Nat → Nat → Nat :=
  fun l => assign ld.innerIn ld.outerIn (s.map (· l)) (e l)

/-- The value of a variable in the lanes `L` of a packet.  A branch of a conditional is executed if
any lane takes it; otherwise its results are undefined (`u`; llvm_eval.cpp:1213-1288).  The condition
of the second branch is another variable in the program; it is the negation of the first condition
here. -/
def denV (g : Graph) (L : List Nat) (u : Nat → Nat) : Nat → (Nat → Nat → Nat) → Nat → Option (Nat → Nat)
  | 0, _, _ => none
  | n + 1, e, i =>
    match (g.node i).kind with
    | .lit c => some fun _ => c
    | .input x => some fun l => entry x (g.node i).size l
    | .op f args => (evalAll (denV g L u n e) args).map fun vs l => f (vs.map (· l))
    | .phi => some fun l => e l i
    | .condOut c t f => (denV g L u n e c).bind fun b =>
      (if anyLane L b then denV g L u n e t else some u).bind fun vt =>
      (if anyLane L (fun l => if b l = 0 then 1 else 0) then denV g L u n e f else some u).map
        fun vf l => if b l ≠ 0 then vt l else vf l
    | .loopOut ld k =>
      ((evalAll (denV g L u n e) ld.outerIn).bind fun s0 =>
        whileV L (fun s => denV g L u n (assignV ld s e) ld.active)
          (fun s => evalAll (denV g L u n (assignV ld s e)) ld.innerOut) n s0).bind fun s => s[k]?

end Verif.Ctrl
