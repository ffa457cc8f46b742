import Verif.Llvm.MkpermProps
import Mathlib.Data.List.Dedup
import Mathlib.Tactic.Common

/-!
# C52: bucketing of instance arrays (`jit_var_call_reduce`)

`/repo/src/call.cpp:1247-1389`, `/repo/src/var.cpp:424-426, 1760-1783`.
-/
namespace Verif.Call.Reduce

open Verif.Par Verif.Llvm

/-! ### Model -/

/-- `InputBucket` (call.cpp:1337-1339) -/
structure InBucket where
  id : Nat
  offset : Nat
  size : Nat

/-- `CallBucket` (jit.h), with the contents of the array `index` -/
structure Bucket where
  ptr : Nat
  id : Nat
  lanes : List Nat

/-- The entries written by `jitc_block_mkperm` (call.cpp:1341) -/
def inBuckets (m : Loc → BitVec 32) (offs n : Nat) : List InBucket :=
  (List.range n).map fun k => ⟨(m (offs, 4 * k)).toNat, (m (offs, 4 * k + 1)).toNat, (m (offs, 4 * k + 2)).toNat⟩

/-- The loop over the sorted buckets (call.cpp:1351-1379).  `sort` is `std::sort` with `b1.size > b2.size`,
`reg` is `jitc_registry_ptr` (or the null pointer if there is no domain), `m` the memory after the computation of the permutation. -/
def outBuckets (sort : List InBucket → List InBucket) (reg : Nat → Nat) (m : Loc → BitVec 32) (permb offs n : Nat) : List Bucket :=
  (sort (inBuckets m offs n)).map fun b => ⟨reg b.id, b.id, (List.range b.size).map fun k => (m (permb, b.offset + k)).toNat⟩

/-- The part of `jitc_var_call_reduce` that runs if the result is not cached (call.cpp:1317-1331): submissions
to the thread pool; `bound` is the largest valid id -/
def mkperm (workers ideal size bound self permb offs cntb fresh : Nat) : Plan (BitVec 32) :=
  blockMkperm workers ideal size size (bound + 1) self permb (some offs) cntb fresh

/-! ### Specification -/

/-- Contract of `std::sort` for the comparison `b1.size > b2.size` -/
def SortOk (sort : List InBucket → List InBucket) : Prop := ∀ l, (sort l).Perm l ∧ (sort l).Pairwise fun a b => b.size ≤ a.size

/-- `bs` are the buckets of the array `v` with `n` elements -/
structure Partition (reg : Nat → Nat) (v : Nat → Nat) (n : Nat) (bs : List Bucket) : Prop where
  /-- One bucket per id, none of them is empty -/
  nodup : (bs.map Bucket.id).Nodup
  nonempty : ∀ b ∈ bs, b.lanes ≠ []
  /-- Lane `i` is in the bucket of its id, and in no other -/
  lane : ∀ i, i < n → ∃ b ∈ bs, b.id = v i ∧ i ∈ b.lanes
  only : ∀ b ∈ bs, ∀ i ∈ b.lanes, i < n ∧ v i = b.id
  /-- once, in increasing order -/
  sorted : ∀ b ∈ bs, b.lanes.Pairwise (· < ·)
  /-- The pointer is that of the instance -/
  ptr : ∀ b ∈ bs, b.ptr = reg b.id

/-! ### Proofs -/

theorem flatMap_drop {v : Nat → Nat} {n bc b : Nat} (hb : b < bc) :
    ((((List.range bc).flatMap fun b => (List.range n).filter fun i => v i = b).drop ((List.range n).countP fun i => v i < b)).take
      ((List.range n).countP fun i => v i = b)) = (List.range n).filter fun i => v i = b := by
  have hlen : ∀ b, ((List.range b).flatMap fun b => (List.range n).filter fun i => v i = b).length = (List.range n).countP fun i => v i < b := by
    intro b
    induction b with
    | zero => simp
    | succ b ih =>
      rw [List.range_succ, List.flatMap_append, List.length_append, ih, List.flatMap_cons, List.flatMap_nil, List.append_nil, ← List.countP_eq_length_filter]
      generalize List.range n = l
      induction l with
      | nil => rfl
      | cons x l ihl =>
        simp only [List.countP_cons, decide_eq_true_eq]
        split_ifs <;> omega
  have hsplit : List.range bc = List.range b ++ b :: List.range' (b + 1) (bc - b - 1) := by
    have h1 := List.range'_append_1 (s := 0) (m := b) (n := bc - b)
    rw [Nat.zero_add, show b + (bc - b) = bc by omega, ← List.range_eq_range', ← List.range_eq_range'] at h1
    rw [← h1]
    congr 1
    rw [show bc - b = bc - b - 1 + 1 by omega, List.range'_succ]
    simp
  rw [hsplit, List.flatMap_append, List.flatMap_cons, ← hlen b, List.drop_left, List.countP_eq_length_filter, List.take_left]

/-- **C52.**  `jit_var_call_reduce()` on an array that has not been processed before, for every number of
threads, every interleaving and every `std::sort`: the buckets partition the lanes by instance, with the
largest bucket first.  (Lanes with id 0 are in a bucket with `id = 0`.) -/
theorem C52_reduce (workers ideal size bound self permb offs cntb fresh : Nat) (sort : List InBucket → List InBucket) (hsort : SortOk sort)
    (reg : Nat → Nat) (hsz : 0 < size) (hid : 16 ≤ ideal) (hsum : size + max ideal size < 2 ^ 32) (hwk : size + 4 * workers ≤ 2 ^ 32)
    (hbound : bound < 2 ^ 30) (hne : [self, permb, offs, cntb].Nodup) (hfresh : ∀ b ∈ [self, permb, offs, cntb], b < fresh) :
    ∃ ps as, mkperm workers ideal size bound self permb offs cntb fresh = .ok ps as ∧
      ∀ m : Loc → BitVec 32, (∀ i, i < size → (m (self, i)).toNat ≤ bound) →
        (∃ m', Ends ps m m') ∧
        ∀ m', Ends ps m m' →
          Partition reg (fun i => (m (self, i)).toNat) size (outBuckets sort reg m' permb offs (m' (cntb, 0)).toNat) ∧
          (outBuckets sort reg m' permb offs (m' (cntb, 0)).toNat).Pairwise fun a b => b.lanes.length ≤ a.lanes.length := by
  simp only [List.nodup_cons, List.mem_cons, List.not_mem_nil, or_false, not_or, List.nodup_nil, and_true, not_false_eq_true] at hne
  simp only [List.mem_cons, List.not_mem_nil, or_false, forall_eq_or_imp, forall_eq] at hfresh
  obtain ⟨⟨n1, n2, n3⟩, ⟨n4, n5⟩, n6⟩ := hne
  obtain ⟨f1, f2, f3, f4⟩ := hfresh
  have hok : MkOk workers ideal size size := C26_fits hsz hsz hid hsum (by omega) hwk (Or.inr (Or.inr (Nat.dvd_refl _)))
  obtain ⟨ps, as, h1, h2⟩ := C26_mkperm_partial workers ideal size size (bound + 1) self permb (some offs) cntb fresh hok (by omega)
    n1 n3 n5 f1 f2 f4 (fun ob h => by cases h; exact ⟨f3, by omega, fun h => n2 h.symm, fun h => n4 h.symm, n6⟩)
  refine ⟨ps, as, h1, fun m hm => ?_⟩
  obtain ⟨_, h3, h4⟩ := h2 m (fun i hi => Nat.lt_succ_of_le (hm i hi))
  refine ⟨h3, fun m' hm' => ?_⟩
  obtain ⟨g1, g2, g3, _⟩ := h4 m' hm'
  rw [if_pos ⟨Nat.le_refl _, rfl⟩] at g2
  have g3 := g3 (Nat.le_refl _) offs rfl
  have g1 := g1 0 (by omega)
  generalize hv : (fun i => (m (self, i)).toNat) = v at *
  have hvv : ∀ i, (m (self, i)).toNat = v i := fun i => by rw [← hv]
  simp only [hvv] at g1 g2 g3 hm
  rw [Nat.zero_mul, Nat.zero_add, Nat.min_self, Nat.sub_zero, Nat.min_self, ← List.range_eq_range'] at g1
  -- the permutation, element by element
  have hperm : ∀ b, b < bound + 1 → (List.range ((List.range size).countP fun i => v i = b)).map
      (fun k => (m' (permb, ((List.range size).countP fun i => v i < b) + k)).toNat) = (List.range size).filter fun i => v i = b := by
    intro b hb
    rw [← flatMap_drop (bc := bound + 1) hb, ← g1]
    unfold slice
    apply List.ext_getElem?
    intro k
    rw [List.getElem?_map, List.getElem?_take, List.getElem?_drop, List.getElem?_map]
    have hbd : (List.range size).countP (fun i => v i < b) + (List.range size).countP (fun i => v i = b) ≤ size := by
      have hl : (List.range size).length = size := List.length_range
      have : ∀ l : List Nat, l.countP (fun i => v i < b) + l.countP (fun i => v i = b) ≤ l.length := by
        intro l
        induction l with
        | nil => simp
        | cons x l ihl =>
          simp only [List.countP_cons, decide_eq_true_eq, List.length_cons]
          split_ifs <;> omega
      have := this (List.range size)
      omega
    by_cases hk : k < (List.range size).countP fun i => v i = b
    · rw [if_pos hk, List.getElem?_range hk, List.getElem?_range (by omega), Option.map_some, Option.map_some, Nat.zero_add]
    · rw [if_neg hk, List.getElem?_eq_none (by rw [List.length_range]; omega)]
      rfl
  -- the entries
  have hin : inBuckets m' offs (m' (cntb, 0)).toNat =
      ((List.range (bound + 1)).filter fun b => decide (0 < (List.range size).countP fun i => v i = b)).map fun b =>
        (⟨b, (List.range size).countP fun i => v i < b, (List.range size).countP fun i => v i = b⟩ : InBucket) := by
    rw [g2]
    unfold inBuckets
    generalize hfl : ((List.range (bound + 1)).filter fun b => decide (0 < (List.range size).countP fun i => v i = b)) = full at *
    apply List.ext_getElem?
    intro k
    rw [List.getElem?_map, List.getElem?_map]
    by_cases hk : k < full.length
    · obtain ⟨q1, q2, q3, _⟩ := g3 k full[k] (List.getElem?_eq_getElem hk)
      rw [List.getElem?_range hk, List.getElem?_eq_getElem hk, Option.map_some, Option.map_some, q1, q2, q3]
    · rw [List.getElem?_eq_none (by rw [List.length_range]; omega), List.getElem?_eq_none (by omega)]
      rfl
  obtain ⟨s1, s2⟩ := hsort (inBuckets m' offs (m' (cntb, 0)).toNat)
  -- members of the sorted list
  have hmem : ∀ x, x ∈ sort (inBuckets m' offs (m' (cntb, 0)).toNat) ↔ ∃ b, b < bound + 1 ∧ (0 < (List.range size).countP fun i => v i = b) ∧
      x = ⟨b, (List.range size).countP fun i => v i < b, (List.range size).countP fun i => v i = b⟩ := by
    intro x
    rw [s1.mem_iff, hin, List.mem_map]
    constructor
    · rintro ⟨b, hb, rfl⟩
      rw [List.mem_filter, List.mem_range, decide_eq_true_eq] at hb
      exact ⟨b, hb.1, hb.2, rfl⟩
    · rintro ⟨b, hb, hc, rfl⟩
      exact ⟨b, List.mem_filter.2 ⟨List.mem_range.2 hb, decide_eq_true hc⟩, rfl⟩
  have hout : ∀ o, o ∈ outBuckets sort reg m' permb offs (m' (cntb, 0)).toNat ↔ ∃ b, b < bound + 1 ∧ (0 < (List.range size).countP fun i => v i = b) ∧
      o = ⟨reg b, b, (List.range size).filter fun i => v i = b⟩ := by
    intro o
    unfold outBuckets
    rw [List.mem_map]
    constructor
    · rintro ⟨x, hx, rfl⟩
      obtain ⟨b, hb, hc, rfl⟩ := (hmem x).1 hx
      refine ⟨b, hb, hc, ?_⟩
      simp only [hperm b hb]
    · rintro ⟨b, hb, hc, rfl⟩
      refine ⟨_, (hmem _).2 ⟨b, hb, hc, rfl⟩, ?_⟩
      simp only [hperm b hb]
  have hlen : ∀ x ∈ sort (inBuckets m' offs (m' (cntb, 0)).toNat), ((List.range x.size).map fun k => (m' (permb, x.offset + k)).toNat).length = x.size :=
    fun x _ => by rw [List.length_map, List.length_range]
  refine ⟨⟨?_, ?_, ?_, ?_, ?_, ?_⟩, ?_⟩
  · unfold outBuckets
    rw [List.map_map]
    have hp : (List.map (Bucket.id ∘ fun b : InBucket => (⟨reg b.id, b.id, (List.range b.size).map fun k => (m' (permb, b.offset + k)).toNat⟩ : Bucket))
        (sort (inBuckets m' offs (m' (cntb, 0)).toNat))).Perm
        ((List.range (bound + 1)).filter fun b => decide (0 < (List.range size).countP fun i => v i = b)) := by
      refine (s1.map _).trans ?_
      rw [hin, List.map_map]
      refine List.Perm.of_eq ?_
      exact List.map_id _
    exact hp.nodup_iff.2 (List.nodup_range.filter _)
  · intro o ho
    obtain ⟨b, hb, hc, rfl⟩ := (hout o).1 ho
    intro h
    rw [List.countP_eq_length_filter] at hc
    exact List.length_pos_iff.1 hc h
  · intro i hi
    refine ⟨⟨reg (v i), v i, (List.range size).filter fun j => v j = v i⟩, (hout _).2 ⟨v i, Nat.lt_succ_of_le (hm i hi), ?_, rfl⟩, rfl, ?_⟩
    · exact List.countP_pos_iff.2 ⟨i, List.mem_range.2 hi, by simp⟩
    · exact List.mem_filter.2 ⟨List.mem_range.2 hi, by simp⟩
  · intro o ho i hi
    obtain ⟨b, hb, hc, rfl⟩ := (hout o).1 ho
    have := List.mem_filter.1 hi
    exact ⟨List.mem_range.1 this.1, of_decide_eq_true this.2⟩
  · intro o ho
    obtain ⟨b, hb, hc, rfl⟩ := (hout o).1 ho
    exact List.pairwise_lt_range.filter _
  · intro o ho
    obtain ⟨b, hb, hc, rfl⟩ := (hout o).1 ho
    rfl
  · unfold outBuckets
    refine List.pairwise_map.2 (s2.imp_of_mem fun {a b} ha hb h => ?_)
    simp only [List.length_map, List.length_range]
    exact h

/-! ### The cache -/

/-- Arrays by variable index, `call_reduce_cache` (call.cpp:1247; the domain is not part of it, it is only
recorded to state theorems) -/
structure St where
  arr : Nat → Option (List Nat)
  cache : List (Nat × Nat × List Bucket)

/-- What a program can do: create an array; change an element in place (`jit_var_write` of an array with one
reference: var.cpp:1760-1783; scatters do so as well: op.cpp:2998); free an array; request its buckets, for
one of several domains -/
inductive Op
  | create (idx : Nat) (a : List Nat)
  | write (idx pos val : Nat)
  | free (idx : Nat)
  | reduce (idx dom : Nat)

/-- Cache lookup (call.cpp:1272-1278) -/
def lookup (s : St) (idx : Nat) : Option (Nat × Nat × List Bucket) := s.cache.find? fun r => r.1 = idx

/-- One step; the result are the returned buckets.  `red dom a` are the buckets computed for an array. -/
def step (red : Nat → List Nat → List Bucket) (s : St) : Op → St × Option (List Bucket)
  | .create idx a => if (s.arr idx).isSome then (s, none) else ({ s with arr := fun k => if k = idx then some a else s.arr k }, none)
  | .write idx pos val => ({ s with arr := fun k => if k = idx then (s.arr k).map (·.set pos val) else s.arr k }, none)
  -- `jitc_var_free` (var.cpp:424-426)
  | .free idx => ({ arr := fun k => if k = idx then none else s.arr k, cache := s.cache.filter fun r => r.1 ≠ idx }, none)
  | .reduce idx dom =>
    match s.arr idx with
    | none => (s, none)
    | some a =>
      match lookup s idx with
      | some r => (s, some r.2.2)
      | none => ({ s with cache := s.cache ++ [(idx, dom, red dom a)] }, some (red dom a))

def run (red : Nat → List Nat → List Bucket) (s : St) : List Op → St
  | [] => s
  | o :: os => run red (step red s o).1 os

/-- The cached buckets are used in the same way they were computed: no array with cached buckets is
changed, no array is used with several domains -/
def Clean (red : Nat → List Nat → List Bucket) (s : St) : List Op → Prop
  | [] => True
  | o :: os =>
    (match o with
     | .write idx _ _ => ∀ r ∈ s.cache, r.1 ≠ idx
     | .reduce idx dom => ∀ r ∈ s.cache, r.1 = idx → r.2.1 = dom
     | _ => True) ∧ Clean red (step red s o).1 os

/-- Buckets of a list, with the instances of domain `dom` -/
def Buckets (reg : Nat → Nat → Nat) (dom : Nat) (a : List Nat) (bs : List Bucket) : Prop := Partition (reg dom) (fun i => a.getD i 0) a.length bs

theorem clean_append {red : Nat → List Nat → List Bucket} : ∀ (l1 l2 : List Op) (s : St), Clean red s (l1 ++ l2) → Clean red s l1 ∧ Clean red (run red s l1) l2
  | [], _, _, h => ⟨trivial, h⟩
  | _ :: l1, l2, _, h => ⟨⟨h.1, (clean_append l1 l2 _ h.2).1⟩, (clean_append l1 l2 _ h.2).2⟩

/-- Every cached record belongs to a live array, and is correct for it -/
def CacheOk (red : Nat → List Nat → List Bucket) (s : St) : Prop := ∀ r ∈ s.cache, ∃ a, s.arr r.1 = some a ∧ r.2.2 = red r.2.1 a

theorem step_ok {red : Nat → List Nat → List Bucket} {s : St} (h : CacheOk red s) (o : Op) (hc : Clean red s [o]) : CacheOk red (step red s o).1 := by
  cases o with
  | create idx a =>
    simp only [step]
    split
    · exact h
    · rename_i hn
      intro r hr
      obtain ⟨a', ha, hb⟩ := h r hr
      refine ⟨a', ?_, hb⟩
      show (if r.1 = idx then some a else s.arr r.1) = some a'
      rw [if_neg, ha]
      intro e
      rw [← e, ha] at hn
      exact hn rfl
  | write idx pos val =>
    intro r hr
    obtain ⟨a', ha, hb⟩ := h r hr
    have hne := hc.1 r hr
    refine ⟨a', ?_, hb⟩
    show (if r.1 = idx then _ else s.arr r.1) = some a'
    rw [if_neg hne, ha]
  | free idx =>
    intro r hr
    have hr := List.mem_filter.1 hr
    obtain ⟨a', ha, hb⟩ := h r hr.1
    refine ⟨a', ?_, hb⟩
    show (if r.1 = idx then _ else s.arr r.1) = some a'
    rw [if_neg (by simpa using hr.2), ha]
  | reduce idx dom =>
    simp only [step]
    split
    · exact h
    · rename_i a ha
      split
      · exact h
      · intro r hr
        rcases List.mem_append.1 hr with hr | hr
        · exact h r hr
        · rw [List.mem_singleton] at hr
          subst hr
          exact ⟨a, ha, rfl⟩

theorem run_ok {red : Nat → List Nat → List Bucket} : ∀ (os : List Op) (s : St), CacheOk red s → Clean red s os → CacheOk red (run red s os)
  | [], _, h, _ => h
  | o :: os, s, h, hc => run_ok os _ (step_ok h o ⟨hc.1, trivial⟩) hc.2

/-- **C52.**  Over any history that does not change an array in place after its buckets were requested, and
uses each array with one domain: every request returns the buckets of the current contents of the array.

Partial: see `C52_stale` for the general case. -/
theorem C52_history_partial (reg : Nat → Nat → Nat) (red : Nat → List Nat → List Bucket) (hred : ∀ dom a, Buckets reg dom a (red dom a))
    (os : List Op) (idx dom : Nat) (hc : Clean red ⟨fun _ => none, []⟩ (os ++ [.reduce idx dom])) (a : List Nat)
    (ha : (run red ⟨fun _ => none, []⟩ os).arr idx = some a) :
    ∃ bs, (step red (run red ⟨fun _ => none, []⟩ os) (.reduce idx dom)).2 = some bs ∧ Buckets reg dom a bs := by
  obtain ⟨h1, h2⟩ := clean_append os [.reduce idx dom] _ hc
  have hok := run_ok os ⟨fun _ => none, []⟩ (fun r hr => (nomatch hr)) h1
  generalize run red ⟨fun _ => none, []⟩ os = s at *
  simp only [step, ha]
  cases hl : lookup s idx with
  | none => exact ⟨_, rfl, hred dom a⟩
  | some r =>
    refine ⟨_, rfl, ?_⟩
    have hmem : r ∈ s.cache := List.mem_of_find?_eq_some hl
    have hidx : r.1 = idx := by have := List.find?_some hl; simpa using this
    obtain ⟨a', ha', hb⟩ := hok r hmem
    have hd : r.2.1 = dom := h2.1 r hmem hidx
    rw [hidx, ha] at ha'
    cases ha'
    rw [hb, hd]
    exact hred dom a

/-- **C52 (negation).**  The cache is keyed by the index of the variable only.  After an in-place change of
the array the buckets are those of the previous contents; and with another domain, the pointers are those of
the first one.  This holds for every correct computation of the buckets. -/
theorem C52_stale (reg : Nat → Nat → Nat) (red : Nat → List Nat → List Bucket) (hred : ∀ dom a, Buckets reg dom a (red dom a)) :
    (∃ bs, (step red (run red ⟨fun _ => none, []⟩ [.create 1 [3], .reduce 1 0, .write 1 0 4]) (.reduce 1 0)).2 = some bs ∧
      (run red ⟨fun _ => none, []⟩ [.create 1 [3], .reduce 1 0, .write 1 0 4]).arr 1 = some [4] ∧ ¬ Buckets reg 0 [4] bs) ∧
    (reg 0 3 ≠ reg 1 3 → ∃ bs, (step red (run red ⟨fun _ => none, []⟩ [.create 1 [3], .reduce 1 0]) (.reduce 1 1)).2 = some bs ∧
      (run red ⟨fun _ => none, []⟩ [.create 1 [3], .reduce 1 0]).arr 1 = some [3] ∧ ¬ Buckets reg 1 [3] bs) := by
  have h := hred 0 [3]
  obtain ⟨b, hb, hid, hmem⟩ := h.lane 0 (by decide)
  refine ⟨⟨red 0 [3], rfl, rfl, fun hbad => ?_⟩, fun hne => ⟨red 0 [3], rfl, rfl, fun hbad => ?_⟩⟩
  · have := (hbad.only b hb 0 hmem).2
    rw [hid] at this
    simp at this
  · have h1 := h.ptr b hb
    have h2 := hbad.ptr b hb
    rw [h1, hid] at h2
    exact hne h2

/-! ### Examples -/

/-- Buckets computed directly: the hypothesis of `C52_history_partial` can be met -/
def demoRed (reg : Nat → Nat → Nat) (dom : Nat) (a : List Nat) : List Bucket :=
  a.dedup.map fun b => ⟨reg dom b, b, (List.range a.length).filter fun i => a.getD i 0 = b⟩

theorem demoRed_ok (reg : Nat → Nat → Nat) (dom : Nat) (a : List Nat) : Buckets reg dom a (demoRed reg dom a) := by
  have hm : ∀ o ∈ demoRed reg dom a, ∃ b ∈ a, o = ⟨reg dom b, b, (List.range a.length).filter fun i => a.getD i 0 = b⟩ := by
    intro o ho
    obtain ⟨b, hb, rfl⟩ := List.mem_map.1 ho
    exact ⟨b, List.mem_dedup.1 hb, rfl⟩
  refine ⟨?_, ?_, ?_, ?_, ?_, ?_⟩
  · unfold demoRed
    rw [List.map_map]
    exact (List.map_id _).symm ▸ List.nodup_dedup a
  · intro o ho
    obtain ⟨b, hb, rfl⟩ := hm o ho
    obtain ⟨i, hi, rfl⟩ := List.mem_iff_getElem.1 hb
    refine List.ne_nil_of_mem (a := i) (List.mem_filter.2 ⟨List.mem_range.2 hi, ?_⟩)
    simp [List.getD_eq_getElem?_getD, List.getElem?_eq_getElem hi]
  · intro i hi
    have hg : a.getD i 0 = a[i] := by simp [List.getD_eq_getElem?_getD, List.getElem?_eq_getElem hi]
    refine ⟨_, List.mem_map.2 ⟨a[i], List.mem_dedup.2 (List.getElem_mem hi), rfl⟩, hg.symm, List.mem_filter.2 ⟨List.mem_range.2 hi, ?_⟩⟩
    exact decide_eq_true hg
  · intro o ho i hi
    obtain ⟨b, hb, rfl⟩ := hm o ho
    have := List.mem_filter.1 hi
    exact ⟨List.mem_range.1 this.1, of_decide_eq_true this.2⟩
  · intro o ho
    obtain ⟨b, hb, rfl⟩ := hm o ho
    exact List.pairwise_lt_range.filter _
  · intro o ho
    obtain ⟨b, hb, rfl⟩ := hm o ho
    rfl

/-- Two requests, and a request after the index was reused for another array -/
example : ∃ bs, (step (demoRed fun d i => 100 * d + i) (run (demoRed fun d i => 100 * d + i) ⟨fun _ => none, []⟩
      [.create 1 [3, 0, 3], .reduce 1 2, .write 7 0 1, .reduce 1 2, .free 1, .create 1 [5, 5]]) (.reduce 1 2)).2 = some bs ∧
    Buckets (fun d i => 100 * d + i) 2 [5, 5] bs :=
  C52_history_partial _ _ (demoRed_ok _) [.create 1 [3, 0, 3], .reduce 1 2, .write 7 0 1, .reduce 1 2, .free 1, .create 1 [5, 5]] 1 2
    (by
      refine ⟨trivial, ?_, ?_, ?_, trivial, trivial, ?_, trivial⟩
      · intro r hr; cases hr
      · intro r hr; rw [List.mem_singleton.1 hr]; decide
      · intro r hr _; rw [List.mem_singleton.1 hr]
      · intro r hr; cases hr) [5, 5] rfl

/-- The array `[2, 0, 2]` (with a sort that does nothing as the buckets have the right order by chance) -/
example : ∃ ps as, mkperm 8 16384 3 2 0 1 2 3 4 = .ok ps as ∧ ∀ m : Loc → BitVec 32, (∀ i, i < 3 → (m (0, i)).toNat ≤ 2) → ∃ m', Ends ps m m' := by
  obtain ⟨ps, as, h1, h2⟩ := C52_reduce 8 16384 3 2 0 1 2 3 4 (fun l => l.mergeSort fun a b => decide (b.size ≤ a.size))
    (fun l => ⟨List.mergeSort_perm l _, by
      have := List.pairwise_mergeSort (le := fun a b : InBucket => decide (b.size ≤ a.size)) (fun a b c => by simp; omega) (fun a b => by simp; omega) l
      exact this.imp fun h => by simpa using h⟩)
    (fun i => i) (by omega) (by omega) (by omega) (by omega) (by omega) (by decide) (by decide)
  exact ⟨ps, as, h1, fun m hm => (h2 m hm).1⟩

end Verif.Call.Reduce
