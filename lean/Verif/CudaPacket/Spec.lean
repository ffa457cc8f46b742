import Verif.CudaPacket.Model

/-! # Specification of packet gathers and scatters -/
namespace Verif.CudaPacket.Spec

/-- Address of byte `k` of element `i` of packet `index`: packets consist of `count` consecutive elements of `tsize` bytes. -/
def byteAddr (count tsize base index i k : Nat) : Nat := base + (index * count + i) * tsize + k

/-- Sizes of elements in bytes -/
def ElementSize (tsize : Nat) : Prop := tsize = 1 ∨ tsize = 2 ∨ tsize = 4 ∨ tsize = 8

/-- A lane writes the byte `b` to the address `a`. -/
def Writes (count tsize base : Nat) (l : Lane) (a : Nat) (b : Byte) : Prop :=
  l.mask = true ∧ ∃ i < count, ∃ k < tsize, a = byteAddr count tsize base l.index i k ∧ b = l.vals.bytes i k

/-- What lanes scatter: packets are inside of the target, and masks occupy one byte. -/
def Valid (count tsize size : Nat) (l : Lane) : Prop :=
  (l.mask = true → l.index < size / count) ∧ (match l.vals with | .bools _ => tsize = 1 | .other _ => True)

end Verif.CudaPacket.Spec
