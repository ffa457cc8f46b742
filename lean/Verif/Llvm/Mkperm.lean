import Verif.Llvm.Split
import Mathlib.Data.List.Nodup

/-!
# Counting sort (`LLVMThreadState::block_mkperm`, `/repo/src/llvm_ts.cpp:785-933`): model

The array `buckets` of pointers is not modelled: the histogram `buckets[index]` of a task, allocated at
lines 845-846 and released at line 921, is the buffer `fresh + index`.
-/
namespace Verif.Llvm

open Verif.Par

/-- Number of tasks per group and number of elements per task (llvm_ts.cpp:799-813) -/
def mkSplit (workers ideal bs : Nat) : Nat × Nat :=
  if workers > 1 then
    (ceilDiv32 bs (max ideal (ceilDiv32 bs (mul32 workers 4))), max ideal (ceilDiv32 bs (mul32 workers 4)))
  else (1, bs)

/-- Range of a task (llvm_ts.cpp:838-843, 906-911) -/
def mkRange (tpg ts bs size index : Nat) : Nat × Nat :=
  (add32 (mul32 (index / tpg) bs) (mul32 (index % tpg) ts),
   min (add32 (add32 (mul32 (index / tpg) bs) (mul32 (index % tpg) ts)) ts) (min (add32 (mul32 (index / tpg) bs) bs) size))

/-- Histogram of a task (llvm_ts.cpp:834-853) -/
def histTask (c : Nat → Nat × Nat) (bc inb fresh index : Nat) : Prog Loc (BitVec 32) Unit :=
  (forLt 0 bc fun b => Prog.put (fresh + index, b) 0).bind fun _ =>
  forNe (c index).1 (c index).2 fun i =>
    (Prog.get (inb, i)).bind fun v =>
    (Prog.get (fresh + index, v.toNat)).bind fun x =>
    Prog.put (fresh + index, v.toNat) (x + 1)

/-- The four numbers describing a bucket (llvm_ts.cpp:881-885) -/
def putEntry (ob : Nat) (uc b off cnt : BitVec 32) : Prog Loc (BitVec 32) Unit :=
  (Prog.put (ob, (uc * 4).toNat) b).bind fun _ =>
  (Prog.put (ob, (uc * 4 + 1).toNat) off).bind fun _ =>
  (Prog.put (ob, (uc * 4 + 2).toNat) cnt).bind fun _ =>
  Prog.put (ob, (uc * 4 + 3).toNat) 0

/-- Body of the loop over the tasks of a group (llvm_ts.cpp:874-879) -/
def accInner (tpg bs fresh g i : Nat) (go : BitVec 32) (j : Nat) (sum : BitVec 32) : Prog Loc (BitVec 32) (BitVec 32) :=
  (Prog.get (fresh + (g * tpg + j), i)).bind fun value =>
  (Prog.put (fresh + (g * tpg + j), i) (BitVec.ofNat 32 (mul32 g bs) + go + sum)).bind fun _ =>
  .pure (sum + value)

/-- Body of the loop over buckets (llvm_ts.cpp:872-888); state: `group_offset`, `unique_count_local` -/
def accBucket (n tpg bs fresh : Nat) (offs : Option Nat) (g i : Nat) (s : BitVec 32 × BitVec 32) :
    Prog Loc (BitVec 32) (BitVec 32 × BitVec 32) :=
  (Prog.loop tpg (0 : BitVec 32) (accInner tpg bs fresh g i s.1)).bind fun sum =>
  (if n = 1 ∧ 0 < sum.toNat then
      offs.elim (.pure s.2) fun ob => (putEntry ob s.2 (BitVec.ofNat 32 i) s.1 sum).bind fun _ => .pure (s.2 + 1)
    else .pure s.2).bind fun uc =>
  .pure (s.1 + sum, uc)

/-- The accumulation step, a single task (llvm_ts.cpp:860-893).  Location `(cntb, 0)` is the local
variable `unique_count`. -/
def accTask (n tpg bs bc fresh : Nat) (offs : Option Nat) (cntb : Nat) (_ : Nat) : Prog Loc (BitVec 32) Unit :=
  (Prog.loop n (0 : BitVec 32) fun g uc =>
    (Prog.loop bc ((0 : BitVec 32), uc) (accBucket n tpg bs fresh offs g)).bind fun s => .pure s.2).bind fun uc =>
  Prog.put (cntb, 0) uc

/-- Writing the permutation (llvm_ts.cpp:902-922) -/
def permTask (c : Nat → Nat × Nat) (inb permb fresh index : Nat) : Prog Loc (BitVec 32) Unit :=
  forNe (c index).1 (c index).2 fun i =>
    (Prog.get (inb, i)).bind fun v =>
    (Prog.get (fresh + index, v.toNat)).bind fun idx =>
    (Prog.put (fresh + index, v.toNat) (idx + 1)).bind fun _ =>
    Prog.put (permb, idx.toNat) (BitVec.ofNat 32 i)

/-- `LLVMThreadState::block_mkperm` (llvm_ts.cpp:785-933).  The return value is left in `(cntb, 0)`.
`jitc_fail` (line 793) terminates the program. -/
def blockMkperm (workers ideal size bs bc inb permb : Nat) (offs : Option Nat) (cntb fresh : Nat) : Plan (BitVec 32) :=
  if size = 0 then .ok [] []
  else if bc = 0 then .raise
  else if bs = 0 then .divZero
  else
    .ok [(mul32 (ceilDiv32 size bs) (mkSplit workers ideal bs).1,
           histTask (mkRange (mkSplit workers ideal bs).1 (mkSplit workers ideal bs).2 bs size) bc inb fresh),
         (1, accTask (ceilDiv32 size bs) (mkSplit workers ideal bs).1 bs bc fresh offs cntb),
         (mul32 (ceilDiv32 size bs) (mkSplit workers ideal bs).1,
           permTask (mkRange (mkSplit workers ideal bs).1 (mkSplit workers ideal bs).2 bs size) inb permb fresh)]
        ((List.range (mul32 (ceilDiv32 size bs) (mkSplit workers ideal bs).1)).map fun t => (fresh + t, bc))

/-! ### Counting -/

section
variable (v : Nat → Nat)

/-- Indices in `lo .. hi-1` -/
def idx (lo hi : Nat) : List Nat := List.range' lo (hi - lo)

/-- Number of elements of `lo .. hi-1` in bucket `b`; in buckets before `b` -/
def eqC (b lo hi : Nat) : Nat := (idx lo hi).countP (fun i => v i = b)
@[inherit_doc eqC] def ltC (b lo hi : Nat) : Nat := (idx lo hi).countP (fun i => v i < b)

variable {v}

theorem idx_append {lo mid hi : Nat} (h1 : lo ≤ mid) (h2 : mid ≤ hi) : idx lo mid ++ idx mid hi = idx lo hi := by
  unfold idx
  have := List.range'_append_1 (s := lo) (m := mid - lo) (n := hi - mid)
  rw [show lo + (mid - lo) = mid by omega, show mid - lo + (hi - mid) = hi - lo by omega] at this
  exact this

theorem mem_idx {lo hi i : Nat} : i ∈ idx lo hi ↔ lo ≤ i ∧ i < hi := by
  unfold idx; rw [List.mem_range'_1]; omega

theorem idx_length {lo hi : Nat} : (idx lo hi).length = hi - lo := by unfold idx; simp

theorem idx_self {lo hi : Nat} (h : hi ≤ lo) : idx lo hi = [] := by
  unfold idx; rw [Nat.sub_eq_zero_of_le h]; rfl

theorem idx_one (i : Nat) : idx i (i + 1) = [i] := by
  unfold idx; rw [Nat.add_sub_cancel_left]; rfl

theorem eqC_self {b lo hi : Nat} (h : hi ≤ lo) : eqC v b lo hi = 0 := by unfold eqC; rw [idx_self h]; rfl

theorem eqC_add {b lo mid hi : Nat} (h1 : lo ≤ mid) (h2 : mid ≤ hi) : eqC v b lo mid + eqC v b mid hi = eqC v b lo hi := by
  unfold eqC; rw [← idx_append h1 h2, List.countP_append]

theorem eqC_succ {b lo hi : Nat} (h : lo ≤ hi) : eqC v b lo (hi + 1) = eqC v b lo hi + if v hi = b then 1 else 0 := by
  rw [← eqC_add h (Nat.le_succ hi)]
  congr 1
  unfold eqC
  rw [idx_one]
  simp [List.countP_cons]

theorem eqC_le {b lo hi : Nat} : eqC v b lo hi ≤ hi - lo := by
  unfold eqC; rw [← idx_length (lo := lo)]; exact List.countP_le_length

/-- Sums -/
def sumN (f : Nat → Nat) : Nat → Nat
  | 0 => 0
  | n + 1 => sumN f n + f n

theorem sumN_congr {f g : Nat → Nat} {n : Nat} (h : ∀ i, i < n → f i = g i) : sumN f n = sumN g n := by
  induction n with
  | zero => rfl
  | succ n ih => unfold sumN; rw [ih (fun i hi => h i (by omega)), h n (by omega)]

theorem ltC_zero {lo hi : Nat} : ltC v 0 lo hi = 0 := by unfold ltC; simp

theorem ltC_succ {b lo hi : Nat} : ltC v (b + 1) lo hi = ltC v b lo hi + eqC v b lo hi := by
  unfold ltC eqC
  induction idx lo hi with
  | nil => rfl
  | cons x l ih =>
    rw [List.countP_cons, List.countP_cons, List.countP_cons, ih]
    by_cases h1 : v x < b
    · simp only [decide_eq_true_eq, h1, if_true, show v x < b + 1 by omega, show ¬ v x = b by omega, if_false]; omega
    · by_cases h2 : v x = b
      · simp only [decide_eq_true_eq, h2, if_true, show b < b + 1 by omega, show ¬ b < b by omega, if_false]; omega
      · simp only [decide_eq_true_eq, h1, h2, show ¬ v x < b + 1 by omega, if_false]; omega

theorem ltC_eq_sum {b lo hi : Nat} : ltC v b lo hi = sumN (fun b' => eqC v b' lo hi) b := by
  induction b with
  | zero => exact ltC_zero
  | succ b ih => rw [ltC_succ, ih]; rfl

/-! ### The sorted list -/

/-- The indices in `lo .. hi-1`, bucket by bucket, in increasing order within each bucket -/
def sorted (v : Nat → Nat) (bc lo hi : Nat) : List Nat := (List.range bc).flatMap fun b => (idx lo hi).filter fun i => v i = b

/-- Position of element `i` in the sorted list -/
def pos (v : Nat → Nat) (lo hi i : Nat) : Nat := ltC v (v i) lo hi + eqC v (v i) lo i

theorem length_before {bc lo hi : Nat} : (sorted v bc lo hi).length = ltC v bc lo hi := by
  induction bc with
  | zero => simp [sorted, ltC_zero]
  | succ b ih =>
    unfold sorted at *
    rw [List.range_succ, List.flatMap_append, List.length_append, ih, ltC_succ]
    congr 1
    simp [eqC, List.countP_eq_length_filter]

theorem length_sorted {bc lo hi : Nat} (hv : ∀ i, lo ≤ i → i < hi → v i < bc) : (sorted v bc lo hi).length = hi - lo := by
  rw [length_before, ← idx_length (lo := lo) (hi := hi)]
  unfold ltC
  rw [List.countP_eq_length]
  intro i hi
  rw [mem_idx] at hi
  simpa using hv i hi.1 hi.2

theorem sorted_at {bc lo hi i : Nat} (hl : lo ≤ i) (hh : i < hi) (hv : v i < bc) : (sorted v bc lo hi)[pos v lo hi i]? = some i := by
  have hsplit : List.range bc = List.range (v i) ++ (v i :: (List.range' (v i + 1) (bc - v i - 1))) := by
    have := List.range'_append_1 (s := 0) (m := v i) (n := bc - v i)
    rw [Nat.zero_add, show v i + (bc - v i) = bc by omega, ← List.range_eq_range', ← List.range_eq_range'] at this
    rw [← this]
    congr 1
    rw [show bc - v i = (bc - v i - 1) + 1 by omega]
    rfl
  have hfilter : (idx lo hi).filter (fun j => v j = v i) =
      (idx lo i).filter (fun j => v j = v i) ++ (i :: (idx (i + 1) hi).filter (fun j => v j = v i)) := by
    rw [← idx_append hl (Nat.le_of_lt hh), ← idx_append (Nat.le_succ i) hh, List.filter_append, List.filter_append, idx_one]
    simp
  unfold sorted
  rw [hsplit, List.flatMap_append, List.flatMap_cons, hfilter]
  have h1 : ((List.range (v i)).flatMap fun b => (idx lo hi).filter fun j => v j = b).length = ltC v (v i) lo hi := length_before
  have h2 : ((idx lo i).filter (fun j => v j = v i)).length = eqC v (v i) lo i := by unfold eqC; rw [List.countP_eq_length_filter]
  rw [List.getElem?_append_right (by rw [h1]; unfold pos; omega), h1]
  unfold pos
  rw [Nat.add_sub_cancel_left, List.append_assoc, List.getElem?_append_right (by rw [h2]), h2, Nat.sub_self]
  rfl

theorem mem_sorted {bc lo hi i : Nat} (h : i ∈ sorted v bc lo hi) : lo ≤ i ∧ i < hi := by
  unfold sorted at h
  rw [List.mem_flatMap] at h
  obtain ⟨b, _, h⟩ := h
  rw [List.mem_filter] at h
  exact mem_idx.1 h.1

theorem pos_lt {bc lo hi i : Nat} (hl : lo ≤ i) (hh : i < hi) (hv : ∀ i, lo ≤ i → i < hi → v i < bc) : pos v lo hi i < hi - lo := by
  have h := sorted_at hl hh (hv i hl hh)
  rw [← length_sorted hv]
  exact (List.getElem?_eq_some_iff.1 h).1

theorem pos_inj {bc lo hi i j : Nat} (hl : lo ≤ i) (hh : i < hi) (hl' : lo ≤ j) (hh' : j < hi) (hv : ∀ i, lo ≤ i → i < hi → v i < bc)
    (h : pos v lo hi i = pos v lo hi j) : i = j := by
  have h1 := sorted_at hl hh (hv i hl hh)
  have h2 := sorted_at hl' hh' (hv j hl' hh')
  rw [h, h2] at h1
  exact (Option.some.inj h1).symm

theorem nodup_sorted {bc lo hi : Nat} : (sorted v bc lo hi).Nodup := by
  unfold sorted
  rw [List.nodup_flatMap]
  refine ⟨fun b _ => List.Nodup.filter _ (List.nodup_range' ..), ?_⟩
  refine List.Pairwise.imp_of_mem ?_ (List.nodup_range (n := bc))
  intro a b _ _ hab
  simp only [Function.onFun]
  intro x h1 h2
  rw [List.mem_filter] at h1 h2
  have e1 := of_decide_eq_true h1.2
  have e2 := of_decide_eq_true h2.2
  exact hab (e1.symm.trans e2)

/-- A function that puts every element at its position lists the sorted elements. -/
theorem eq_sorted {bc lo hi : Nat} (hlh : lo ≤ hi) (hv : ∀ i, lo ≤ i → i < hi → v i < bc) {p : Nat → Nat}
    (hp : ∀ i, lo ≤ i → i < hi → p (lo + pos v lo hi i) = i) : slice p lo hi = sorted v bc lo hi := by
  apply List.ext_getElem?
  intro k
  by_cases hk : k < hi - lo
  · have hk' : k < (sorted v bc lo hi).length := by rw [length_sorted hv]; exact hk
    have hm := mem_sorted (List.getElem_mem hk')
    have hat := sorted_at (bc := bc) hm.1 hm.2 (hv _ hm.1 hm.2)
    have hlt := (List.getElem?_eq_some_iff.1 hat).1
    rw [← List.getElem?_eq_getElem hk', List.getElem?_inj hlt nodup_sorted] at hat
    have hpk := hp _ hm.1 hm.2
    rw [hat] at hpk
    rw [List.getElem?_eq_getElem hk', ← hpk]
    unfold slice
    rw [List.getElem?_map, List.getElem?_range hk]
    rfl
  · rw [List.getElem?_eq_none (by rw [slice_length]; omega), List.getElem?_eq_none (by rw [length_sorted hv]; omega)]

end

end Verif.Llvm
