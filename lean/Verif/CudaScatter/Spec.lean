import Verif.CudaScatter.Model

/-!
# Specification of scatter-reductions on CUDA devices
-/
namespace Verif.CudaScatter

/-- `Bracketed op l v`: `v` is the combination of the values `l`, in this order, bracketed in some way. -/
inductive Bracketed {V : Type} (op : V → V → V) : List V → V → Prop
  | one (v : V) : Bracketed op [v] v
  | join {l l' : List V} {a b : V} : Bracketed op l a → Bracketed op l' b → Bracketed op (l ++ l') (op a b)

/-- The values that a launch combines with the element at address `a`: those of active lanes, for which `a` is the address
of entry `i < n` of the packet. -/
def contributions {V : Type} (n tsize : Nat) (gs : List (Group V)) (a : Nat) : List V :=
  gs.flatMap fun g => ((List.range 32).filter fun l => g.active l).flatMap fun l =>
    ((List.range n).filter fun i => g.addr l + i * tsize = a).map fun i => g.val l i

/-- All active lanes of a group use entries of one array of less than 2^32 elements of `2^shift` bytes. -/
def Group.InArray {V : Type} (g : Group V) (shift : Nat) : Prop :=
  ∃ base, ∀ l < 32, g.active l → ∃ e < 2 ^ 32, g.addr l = base + e * 2 ^ shift

/-- Lanes that use address `a`: number of the group and lane -/
def lanesAt {V : Type} (gs : List (Group V)) (a : Nat) : List (Nat × Nat) :=
  (List.range gs.length).flatMap fun k => match gs[k]? with
    | none => []
    | some g => ((List.range 32).filter fun l => g.active l && g.addr l == a).map fun l => (k, l)

end Verif.CudaScatter
