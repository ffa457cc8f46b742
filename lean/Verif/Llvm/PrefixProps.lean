import Verif.Llvm.Prefix
import Verif.Llvm.ReduceProps
import Mathlib.Algebra.BigOperators.Group.List.Basic

/-!
# C23, C47: block prefix reductions
-/
namespace Verif.Llvm

open Verif.Par

variable {T A : Type}

theorem fill_items (n outb : Nat) (v : T) (m0 : Loc → T) :
    Items n (fun _ => ∅) (fun i => {l | l = (outb, i)}) (fun i m => m (outb, i) = v) m0 (fun i => Prog.put (outb, i) v) := by
  refine ⟨?_, ?_, ?_⟩
  · rintro i j hi hj hij _ rfl
    exact ⟨fun h => h, fun h => hij (congrArg Prod.snd (Set.mem_setOf_eq ▸ h))⟩
  · intro i m m' hi h hp
    rw [h (outb, i) rfl]; exact hp
  · intro i m hi hm
    refine wp_put rfl ?_
    simp only [upd, if_true]

theorem fillTask_spec (n outb : Nat) (v : T) (m m' : Loc → T) (h : Phase.Ends (1, fillTask n outb v) m m') :
    (∀ i, i < n → m' (outb, i) = v) ∧ ∀ l, l ∉ cells outb 0 n → m' l = m l := by
  obtain ⟨h1, h2⟩ := items_spec (split_one n) (fill_items n outb v m) h
  refine ⟨h1, fun l hl => h2 l ?_⟩
  rintro i hi rfl
  exact hl ⟨rfl, Nat.zero_le _, hi⟩

theorem fillTask_safe (n outb : Nat) (v : T) (m : Loc → T) {ok : Bool → Loc → Prop} (hw : ∀ i, i < n → ok true (outb, i)) :
    Phase.Safe (1, fillTask n outb v) ok m := by
  refine items_safe (split_one n) (fill_items n outb v m) ?_ ?_
  · rintro i hi l h; exact absurd h (fun h => h)
  · rintro i hi _ rfl; exact hw i hi

theorem scanList_one (reverse exclusive : Bool) (f : Nat → T) {size j : Nat} (hj : j < size) :
    scanList reverse exclusive f size 1 j = if exclusive then [] else [f j] := by
  unfold scanList
  rw [Nat.div_one, Nat.mul_one, show min (j + 1) size = j + 1 by omega]
  have h : slice f j (j + 1) = [f j] := by rw [slice_succ _ (le_refl _), slice_self _ (le_refl _)]; rfl
  cases reverse <;> cases exclusive <;> simp [h]

/-- **C23.**  For every operation, size, block size, mode, number of threads and interleaving: the call
succeeds, all memory accesses are within bounds, and `out[j]` is a reduction of the elements of the
block of `j` that precede `j` (or follow it, in reverse mode), including `j` itself unless `exclusive`.
`in` and `out` may be the same buffer.  Nothing else is modified.

In reverse mode, the order of the elements within the reduction is not specified.  `ident` is the
initial value of the reduction.  If `block_size = 1`, the array must be smaller than 2^32 bytes, see
`C23_copy_wraps`. -/
theorem C23_block_prefix_reduce (r : Red T A) (ident : T) (hident : ident = r.ofV r.e) (tsize workers ideal size block_size : Nat)
    (exclusive reverse : Bool) (inb outb fresh : Nat)
    (hb : 1 ≤ block_size) (hle : block_size ≤ size) (hsum : size + block_size ≤ 2 ^ 32) (hone : block_size = 1 → size * tsize < 2 ^ 32)
    (hid : 16 ≤ ideal) (hid' : ideal < 2 ^ 31) (ht : 1 ≤ tsize) (ht8 : tsize ≤ 8) (hin : inb < fresh) (hout : outb < fresh) :
    ∃ ps as, blockPrefix r ident tsize workers ideal size block_size exclusive reverse inb outb fresh = .ok ps as ∧
      ∀ m, Safe (InBounds inb size outb size as) ps m ∧
        (∃ m', Ends ps m m') ∧
        ∀ m', Ends ps m m' →
          (∀ j, j < size → ResultIn r reverse (scanList reverse exclusive (fun j => m (inb, j)) size block_size j) (m' (outb, j))) ∧
          ∀ l : Loc, l.1 < fresh → ¬ (l.1 = outb ∧ l.2 < size) → m' l = m l := by
  by_cases h1 : block_size = 1
  · subst h1
    have hsz := hone rfl
    rw [blockPrefix, if_neg (by omega), if_neg (by omega), if_pos rfl]
    have key : ∀ t : T, ∀ x, ResultIn r reverse [x] x := by
      intro t x
      cases reverse
      · exact Result.copy x
      · exact ⟨_, .refl _, .copy x⟩
    cases exclusive
    · simp only [Bool.false_eq_true, if_false]
      by_cases hne : inb = outb
      · rw [if_neg (by simpa using hne)]
        refine ⟨_, _, rfl, fun m => ⟨trivial, ends_exists _ _, ?_⟩⟩
        rintro m' rfl
        refine ⟨fun j hj => ?_, fun _ _ _ => rfl⟩
        rw [scanList_one _ _ _ hj, hne]
        exact key ident _
      · rw [if_pos hne, mul32_eq hsz, Nat.mul_div_cancel _ (by omega)]
        refine ⟨_, _, rfl, fun m => ⟨⟨?_, fun _ _ => trivial⟩, ends_exists _ _, ?_⟩⟩
        · exact copyTask_safe size hne m (fun j hj => Or.inl ⟨rfl, rfl, hj⟩) (fun i hi => Or.inr (Or.inl ⟨rfl, hi⟩))
        · rintro m' ⟨m1, hm1, rfl⟩
          obtain ⟨h2, h3⟩ := copyTask_spec size hne m _ hm1
          refine ⟨fun j hj => ?_, fun l _ hl => h3 l fun h => hl ⟨h.1, h.2.2⟩⟩
          rw [h2 j hj, scanList_one _ _ _ hj]
          exact key ident _
    · rw [if_pos rfl]
      refine ⟨_, _, rfl, fun m => ⟨⟨?_, fun _ _ => trivial⟩, ends_exists _ _, ?_⟩⟩
      · exact fillTask_safe size outb ident m (fun i hi => Or.inr (Or.inl ⟨rfl, hi⟩))
      · rintro m' ⟨m1, hm1, rfl⟩
        obtain ⟨h2, h3⟩ := fillTask_spec size outb ident m _ hm1
        refine ⟨fun j hj => ?_, fun l _ hl => h3 l fun h => hl ⟨h.1, h.2.2⟩⟩
        rw [h2 j hj, scanList_one _ _ _ hj, hident]
        exact CombinesIn.nil.result
  · obtain ⟨ps, as, hp, _, h⟩ := blockPrefix_rec r ident tsize workers hid ht ht8 reverse block_size size exclusive inb outb fresh
      ⟨by omega, hle, hsum, by omega, hid'⟩ hin hout
    refine ⟨ps, as, hp, fun m => ⟨(h m).1, ends_exists _ _, fun m' hm' => ?_⟩⟩
    obtain ⟨h2, h3⟩ := (h m).2 m' hm'
    exact ⟨h2, fun l hl hl2 => h3 l hl fun h => hl2 ⟨h.1, h.2.2⟩⟩

/-! ### Integers -/

variable {w : Nat}

theorem IsReduction.perm {signed : Bool} {op : ROp} {l l' : List (BitVec w)} {t : BitVec w} (h : IsReduction signed op l t) (hp : l.Perm l') :
    IsReduction signed op l' t := by
  have hnil : l = [] ↔ l' = [] := ⟨fun h => by subst h; exact hp.nil_eq.symm, fun h => by subst h; exact hp.eq_nil⟩
  cases op <;> simp only [IsReduction, hp.mem_iff, hnil] at h ⊢
  · rw [← (hp.map _).sum_eq]; exact h
  · rw [← (hp.map _).prod_eq]; exact h
  · exact h
  · exact h
  · exact h
  · exact h

/-- `jitc_reduce_identity` (var.cpp:2641-2652) for integer types, with the tables of var.cpp:140-165 -/
def identityTable (signed : Bool) (w : Nat) : ROp → Nat
  | .or => 0
  | .add => 0
  | .and => match w with | 8 => 0xff | 16 => 0xffff | 32 => 0xffffffff | _ => 0xffffffffffffffff
  | .mul => 1
  | .min => match signed, w with
    | true, 8 => 0x7f | true, 16 => 0x7fff | true, 32 => 0x7fffffff | true, _ => 0x7fffffffffffffff
    | false, 8 => 0xff | false, 16 => 0xffff | false, 32 => 0xffffffff | false, _ => 0xffffffffffffffff
  | .max => match signed, w with
    | true, 8 => 0x80 | true, 16 => 0x8000 | true, 32 => 0x80000000 | true, _ => 0x8000000000000000
    | false, _ => 0

/-- The tables contain the initial values of the reductions. -/
theorem identity_init (signed : Bool) (op : ROp) (hw : w = 8 ∨ w = 16 ∨ w = 32 ∨ w = 64) :
    BitVec.ofNat w (identityTable signed w op) = (intRed signed w op).ofV (intRed signed w op).e := by
  rcases hw with rfl | rfl | rfl | rfl <;> cases signed <;> cases op <;> decide +kernel

/-- **C23.**  For integers, the result is determined: the sum, product, minimum, etc. of the elements
in question. -/
theorem C23_integers (signed : Bool) (hw : w = 8 ∨ w = 16 ∨ w = 32 ∨ w = 64) (op : ROp) (workers ideal size block_size : Nat)
    (exclusive reverse : Bool) (inb outb fresh : Nat)
    (hb : 1 ≤ block_size) (hle : block_size ≤ size) (hsum : size + block_size ≤ 2 ^ 32) (hone : block_size = 1 → size * (w / 8) < 2 ^ 32)
    (hid : 16 ≤ ideal) (hid' : ideal < 2 ^ 31) (hin : inb < fresh) (hout : outb < fresh) :
    ∃ ps as, blockPrefix (intRed signed w op) (BitVec.ofNat w (identityTable signed w op)) (w / 8) workers ideal size block_size
        exclusive reverse inb outb fresh = .ok ps as ∧
      ∀ m m', Ends ps m m' → ∀ j, j < size →
        IsReduction signed op (scanList reverse exclusive (fun j => m (inb, j)) size block_size j) (m' (outb, j)) := by
  obtain ⟨ps, as, hp, h⟩ := C23_block_prefix_reduce (intRed signed w op) _ (identity_init signed op hw) (w / 8) workers ideal size block_size
    exclusive reverse inb outb fresh hb hle hsum hone hid hid' (by omega) (by omega) hin hout
  refine ⟨ps, as, hp, fun m m' hm' j hj => ?_⟩
  have h1 := ((h m).2.2 m' hm').1 j hj
  cases reverse
  · exact Result.isReduction signed (by omega) op h1
  · obtain ⟨l', h2, h3⟩ := h1
    exact (h3.isReduction signed (by omega) op).perm h2

/-- **C23.**  Empty arrays and invalid block sizes -/
theorem C23_trivial (r : Red T A) (ident : T) (tsize workers ideal size block_size : Nat) (exclusive reverse : Bool) (inb outb fresh : Nat) :
    blockPrefix r ident tsize workers ideal 0 block_size exclusive reverse inb outb fresh = .ok [] [] ∧
    (size ≠ 0 → block_size = 0 ∨ block_size > size →
      blockPrefix r ident tsize workers ideal size block_size exclusive reverse inb outb fresh = .raise) := by
  constructor
  · rw [blockPrefix, if_pos rfl]
  · intro h1 h2
    rw [blockPrefix, if_neg h1, if_pos h2]

/-- **C23 fails** for inclusive prefix reductions with blocks of size one of an array of 2^30 32-bit
elements: the number of bytes to be copied is computed with 32 bits, and nothing is copied. -/
theorem C23_copy_wraps (r : Red (BitVec 32) (BitVec 32)) (ident : BitVec 32) (workers ideal : Nat) (reverse : Bool) :
    ∃ ps, blockPrefix r ident 4 workers ideal (2 ^ 30) 1 false reverse 0 1 2 = .ok ps [] ∧ ∀ m m', Ends ps m m' → m' = m := by
  rw [blockPrefix, if_neg (by omega), if_neg (by omega), if_pos rfl]
  simp only [Bool.false_eq_true, if_false]
  rw [if_pos (by omega)]
  refine ⟨_, rfl, fun m m' h => ?_⟩
  obtain ⟨m1, hm1, rfl⟩ := h
  have e : mul32 (2 ^ 30) 4 / 4 = 0 := by decide +kernel
  rw [e] at hm1
  obtain ⟨_, h3⟩ := copyTask_spec 0 (show (0 : Nat) ≠ 1 by omega) m _ hm1
  funext l
  exact h3 l (fun h => by have := h.2.2; omega)

/-! ### C47: the public interface -/

/-- `jit_block_prefix_reduce(backend, type, op, block_size, size, ...)` (api.cpp:1331-1337) passes its
arguments to `jitc_block_prefix_reduce(backend, vt, op, size, block_size, ...)` (util.cpp:55-61) in the
order `block_size, size`. -/
def jitBlockPrefix (r : Red T A) (ident : T) (tsize workers ideal block_size size : Nat) (exclusive reverse : Bool) (inb outb fresh : Nat) : Plan T :=
  blockPrefix r ident tsize workers ideal block_size size exclusive reverse inb outb fresh

/-- **C47 fails** whenever there is more than one block: the call raises an exception. -/
theorem C47_swapped (r : Red T A) (ident : T) (tsize workers ideal block_size size : Nat) (exclusive reverse : Bool) (inb outb fresh : Nat)
    (h1 : 0 < block_size) (h2 : block_size < size) :
    jitBlockPrefix r ident tsize workers ideal block_size size exclusive reverse inb outb fresh = .raise :=
  (C23_trivial r ident tsize workers ideal block_size size exclusive reverse inb outb fresh).2 (by omega) (Or.inr h2)

/-- **C47, partial:** with a single block, the function does what its documentation says. -/
theorem C47_single_block_partial (r : Red T A) (ident : T) (tsize workers ideal size : Nat) (exclusive reverse : Bool) (inb outb fresh : Nat) :
    jitBlockPrefix r ident tsize workers ideal size size exclusive reverse inb outb fresh =
      blockPrefix r ident tsize workers ideal size size exclusive reverse inb outb fresh := rfl

/-! ### The hypotheses can be met -/

/-- Exclusive sums, from the end, in place, 8 chunks per block -/
example : ∃ ps as, blockPrefix (intRed false 32 .add) 0 4 8 16 1000 128 true true 0 0 1 = .ok ps as ∧
    ∀ m m', Ends ps m m' → ∀ j, j < 1000 →
      IsReduction false .add (scanList true true (fun j => m (0, j)) 1000 128 j) (m' (0, j)) :=
  C23_integers false (Or.inr (Or.inr (Or.inl rfl))) .add 8 16 1000 128 true true 0 0 1 (by omega) (by omega) (by omega) (by omega)
    (by omega) (by omega) (by omega) (by omega)

example : (geometry 8 16 1000 128).map (fun g => (g.chunk_size, g.chunks_per_block, g.chunk_count)) = some (16, 8, 64) := by decide +kernel
example : scanList true true (fun j => j) 10 4 5 = [6, 7] ∧ scanList true false (fun j => j) 10 4 8 = [8, 9] ∧
    scanList false true (fun j => j) 10 4 6 = [4, 5] ∧ scanList false false (fun j => j) 10 4 4 = [4] := by decide +kernel

end Verif.Llvm
