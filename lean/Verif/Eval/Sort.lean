import Mathlib.Data.List.Basic
import Mathlib.Data.List.Sort
import Mathlib.Data.List.Perm.Basic
import Mathlib.Tactic.Common

/-!
# Ordering of the evaluation schedule (C20)

Model of `jitc_schedule_sort` (src/eval.cpp:862-920) and the proof that both of
its code paths (bucket sort and comparison sort) produce the one list that is
sorted by decreasing size, then increasing scope, and that keeps the traversal
order among equal keys.
-/

namespace Verif.Eval

/-- `ScheduledVariable` (src/eval.h:18-28). The `data` field is null while the
schedule is sorted and is left out. -/
structure SV where
  size : Nat
  scope : Nat
  index : Nat
  deriving DecidableEq, Repr

/-- `Bucket` (src/eval.cpp:859). -/
structure Bucket where
  size : Nat
  scope : Nat
  count : Nat
  offset : Nat
  deriving DecidableEq, Repr

/-- The comparator `less` (src/eval.cpp:864-866) on (size, scope) pairs. -/
def less (a b : Nat × Nat) : Bool :=
  if a.1 ≠ b.1 then decide (a.1 > b.1) else decide (a.2 < b.2)

/-- The (size, scope) key of an entry / of a bucket. -/
def SV.key (v : SV) : Nat × Nat := (v.size, v.scope)
def Bucket.key (b : Bucket) : Nat × Nat := (b.size, b.scope)

/-- 32-bit addition, used for counts and offsets. -/
def add32 (a b : Nat) : Nat := (a + b) % 2 ^ 32

/-- The search loop of `find` (src/eval.cpp:879-882): the first bucket with the
key `k` at a position `≥ i`, together with the value of the loop counter
`hint` on exit. -/
def findFrom (k : Nat × Nat) : List Bucket → Nat → Option Nat × Nat
  | [], i => (none, i)
  | b :: bs, i => if b.key = k then (some i, i) else findFrom k bs (i + 1)

/-- `find` (src/eval.cpp:875-884): position of the bucket of `k` and the new
value of `hint`. -/
def find (bs : List Bucket) (hint : Nat) (k : Nat × Nat) : Option Nat × Nat :=
  if (bs[hint]?.map Bucket.key) = some k then (some hint, hint)
  else findFrom k bs 0

/-- Increment the `count` of bucket `j` (src/eval.cpp:891). -/
def incCount (bs : List Bucket) (j : Nat) : List Bucket :=
  bs.modify j fun b => { b with count := add32 b.count 1 }

/-- Increment the `offset` of bucket `j` (src/eval.cpp:918). -/
def incOffset (bs : List Bucket) (j : Nat) : List Bucket :=
  bs.modify j fun b => { b with offset := add32 b.offset 1 }

/-- Largest number of buckets (src/eval.cpp:887). -/
def maxBuckets : Nat := 32

/-- Pass 1 (src/eval.cpp:886-899); `none` is `fallback = true`. -/
def pass1 : List SV → List Bucket → Nat → Option (List Bucket)
  | [], bs, _ => some bs
  | sv :: rest, bs, hint =>
    match find bs hint sv.key with
    | (some j, hint') => pass1 rest (incCount bs j) hint'
    | (none, _) =>
      if bs.length < maxBuckets then
        pass1 rest (bs ++ [⟨sv.size, sv.scope, 1, 0⟩]) bs.length
      else none

/-- Prefix sum of the counts (src/eval.cpp:909-913). -/
def offsets : List Bucket → Nat → List Bucket
  | [], _ => []
  | b :: bs, o => { b with offset := o } :: offsets bs (add32 o b.count)

/-- Pass 2 (src/eval.cpp:915-919). The scratch array is a list of cells; `none`
as a result means that a null bucket was dereferenced or that a write went out
of bounds. -/
def pass2 : List SV → List Bucket → Nat → List (Option SV) → Option (List (Option SV))
  | [], _, _, out => some out
  | sv :: rest, bs, hint, out =>
    match find bs hint sv.key with
    | (none, _) => none
    | (some j, hint') =>
      match bs[j]? with
      | none => none
      | some b =>
        if b.offset < out.length then
          pass2 rest (incOffset bs j) hint' (out.set b.offset (some sv))
        else none

/-- The contract of the two library sorts for the comparator `less` and a key
function: a permutation that is never out of order. `std::stable_sort`
additionally keeps the order of equivalent entries. -/
structure SortOk {α : Type} (key : α → Nat × Nat) (srt : List α → List α) : Prop where
  perm : ∀ l, (srt l).Perm l
  sorted : ∀ l, (srt l).Pairwise fun a b => less (key b) (key a) = false

structure StableSortOk {α : Type} (key : α → Nat × Nat) (srt : List α → List α) : Prop
    extends SortOk key srt where
  stable : ∀ l k, (srt l).filter (fun a => decide (key a = k)) =
    l.filter (fun a => decide (key a = k))

/-- `jitc_schedule_sort` (src/eval.cpp:862-920). `stdSort` and `stableSort` are
the library functions `std::sort` and `std::stable_sort`. The result is `none`
when the code performs an invalid memory access, or leaves a cell of the result
uninitialized. -/
def scheduleSort (stdSort : List Bucket → List Bucket) (stableSort : List SV → List SV)
    (sched : List SV) : Option (List SV) :=
  match pass1 sched [] 0 with
  | none => some (stableSort sched)
  | some bs =>
    if bs.length ≤ 1 then some sched
    else
      (pass2 sched (offsets (stdSort bs) 0) 0 (List.replicate sched.length none)).bind
        fun cells => cells.mapM id

/-! ## Specification -/

/-- Entry `a` may stand before `b`: larger launch size first, then smaller scope. -/
def InOrder (a b : SV) : Prop :=
  a.size > b.size ∨ (a.size = b.size ∧ a.scope ≤ b.scope)

/-- `out` is the schedule `sched` ordered by size (descending) and scope
(ascending), with the original order among entries that agree in both. -/
structure SortedSchedule (sched out : List SV) : Prop where
  perm : out.Perm sched
  sorted : out.Pairwise InOrder
  stable : ∀ size scope,
    out.filter (fun v => decide (v.size = size ∧ v.scope = scope)) =
    sched.filter (fun v => decide (v.size = size ∧ v.scope = scope))

/-! ## Facts about the comparator -/

theorem not_less_iff (a b : SV) : less b.key a.key = false ↔ InOrder a b := by
  unfold less InOrder SV.key
  dsimp only
  split_ifs with h
  · simp only [decide_eq_false_iff_not]; omega
  · simp only [decide_eq_false_iff_not]; omega

theorem less_asymm {a b : Nat × Nat} (h : less a b = true) : less b a = false := by
  unfold less at *
  split_ifs at * <;> simp_all <;> omega

theorem eq_of_not_less {a b : Nat × Nat} (h1 : less a b = false) (h2 : less b a = false) :
    a = b := by
  unfold less at *
  obtain ⟨a1, a2⟩ := a
  obtain ⟨b1, b2⟩ := b
  dsimp only at *
  split_ifs at * <;> simp_all <;> omega

theorem not_less_trans {a b c : Nat × Nat} (h1 : less b a = false) (h2 : less c b = false) :
    less c a = false := by
  unfold less at *
  split_ifs at * <;> simp_all <;> omega

/-! ## `find` -/

theorem findFrom_some {k : Nat × Nat} {bs : List Bucket} {i j h : Nat}
    (e : findFrom k bs i = (some j, h)) :
    i ≤ j ∧ (bs[j - i]?.map Bucket.key) = some k := by
  induction bs generalizing i with
  | nil => simp [findFrom] at e
  | cons b bs ih =>
    unfold findFrom at e
    split_ifs at e with hk
    · simp only [Prod.mk.injEq, Option.some.injEq] at e
      obtain ⟨rfl, _⟩ := e
      simp [hk]
    · obtain ⟨h1, h2⟩ := ih e
      refine ⟨by omega, ?_⟩
      have : j - i = (j - (i + 1)) + 1 := by omega
      rw [this, List.getElem?_cons_succ]
      exact h2

theorem findFrom_none {k : Nat × Nat} {bs : List Bucket} {i h : Nat}
    (e : findFrom k bs i = (none, h)) : ∀ b ∈ bs, b.key ≠ k := by
  induction bs generalizing i with
  | nil => simp
  | cons b bs ih =>
    unfold findFrom at e
    split_ifs at e with hk
    · simp at e
    intro b' hb'
    rcases List.mem_cons.1 hb' with rfl | hb'
    · exact hk
    · exact ih e b' hb'

theorem find_some {k : Nat × Nat} {bs : List Bucket} {hint j h : Nat}
    (e : find bs hint k = (some j, h)) : (bs[j]?.map Bucket.key) = some k := by
  unfold find at e
  split_ifs at e with hk
  · simp only [Prod.mk.injEq, Option.some.injEq] at e
    obtain ⟨rfl, _⟩ := e
    exact hk
  · exact (findFrom_some e).2

theorem find_none {k : Nat × Nat} {bs : List Bucket} {hint h : Nat}
    (e : find bs hint k = (none, h)) : ∀ b ∈ bs, b.key ≠ k := by
  unfold find at e
  split_ifs at e with hk
  · simp at e
  · exact findFrom_none e

/-! ## Pass 1 -/

/-- Number of entries with key `k`. -/
def cnt (l : List SV) (k : Nat × Nat) : Nat :=
  (l.filter fun v => decide (v.key = k)).length

theorem cnt_snoc (l : List SV) (v : SV) (k : Nat × Nat) :
    cnt (l ++ [v]) k = cnt l k + if v.key = k then 1 else 0 := by
  unfold cnt
  rw [List.filter_append, List.length_append]
  by_cases h : v.key = k <;> simp [h]

theorem cnt_le (l : List SV) (k : Nat × Nat) : cnt l k ≤ l.length :=
  List.length_filter_le _ _

/-- What pass 1 knows after the prefix `p`. -/
structure Tally (p : List SV) (bs : List Bucket) : Prop where
  nodup : (bs.map Bucket.key).Nodup
  counts : ∀ b ∈ bs, b.count = cnt p b.key
  complete : ∀ v ∈ p, v.key ∈ bs.map Bucket.key
  small : bs.length ≤ maxBuckets

theorem map_key_modify (bs : List Bucket) (j : Nat) (f : Bucket → Bucket)
    (hf : ∀ b, (f b).key = b.key) : (bs.modify j f).map Bucket.key = bs.map Bucket.key := by
  apply List.ext_getElem?
  intro i
  simp only [List.getElem?_map, List.getElem?_modify]
  by_cases h : j = i
  · subst h
    cases bs[j]? <;> simp [hf]
  · simp [h]

theorem pass1_spec {rest p : List SV} {bs : List Bucket} {hint : Nat}
    (hp : (p ++ rest).length < 2 ^ 32) (ht : Tally p bs) :
    ∀ out, pass1 rest bs hint = some out → Tally (p ++ rest) out := by
  induction rest generalizing p bs hint with
  | nil =>
    intro out e
    simp only [pass1, Option.some.injEq] at e
    subst e
    simpa using ht
  | cons sv rest ih =>
    intro out e
    have happ : p ++ sv :: rest = (p ++ [sv]) ++ rest := by simp
    rw [happ] at hp ⊢
    unfold pass1 at e
    cases hf : find bs hint sv.key with
    | mk r h' =>
      rw [hf] at e
      cases r with
      | some j =>
        dsimp only at e
        refine ih hp ?_ out e
        have hj := find_some hf
        have hlt : j < bs.length := by
          by_contra hc
          rw [List.getElem?_eq_none (by omega)] at hj
          simp at hj
        have hjk : bs[j].key = sv.key := by
          rw [List.getElem?_eq_getElem hlt] at hj
          simpa using hj
        have hkeys : (incCount bs j).map Bucket.key = bs.map Bucket.key :=
          map_key_modify bs j _ (fun b => rfl)
        refine ⟨by rw [hkeys]; exact ht.nodup, ?_, ?_, ?_⟩
        · intro b hb
          obtain ⟨i, hi, rfl⟩ := List.getElem_of_mem hb
          have hi' : i < bs.length := by simpa [incCount] using hi
          have hc := ht.counts bs[i] (List.getElem_mem hi')
          have hle := cnt_le p bs[i].key
          simp only [incCount, List.getElem_modify]
          split_ifs with hij
          · subst hij
            show add32 bs[j].count 1 = cnt (p ++ [sv]) bs[j].key
            rw [cnt_snoc, hc, hjk, if_pos rfl]
            unfold add32
            rw [hjk] at hle
            simp only [List.length_append, List.length_singleton] at hp
            omega
          · rw [cnt_snoc, hc, if_neg, Nat.add_zero]
            intro he
            apply hij
            have := (List.nodup_iff_injective_get.1 ht.nodup)
              (a₁ := ⟨j, by simpa using hlt⟩) (a₂ := ⟨i, by simpa using hi'⟩)
              (by simp [hjk, he])
            simpa using this
        · intro v hv
          rw [hkeys]
          rcases List.mem_append.1 hv with hv | hv
          · exact ht.complete v hv
          · rw [List.mem_singleton.1 hv, ← hjk]
            exact List.mem_map_of_mem (List.getElem_mem hlt)
        · simpa [incCount] using ht.small
      | none =>
        dsimp only at e
        split_ifs at e with hlen
        refine ih hp ?_ out e
        have hnot := find_none hf
        have hnot' : sv.key ∉ bs.map Bucket.key := by
          intro hm
          obtain ⟨b, hb, hk⟩ := List.mem_map.1 hm
          exact hnot b hb hk
        have hzero : cnt p sv.key = 0 := by
          unfold cnt
          rw [List.length_eq_zero_iff, List.filter_eq_nil_iff]
          intro v hv hk
          have := ht.complete v hv
          rw [of_decide_eq_true hk] at this
          exact hnot' this
        refine ⟨?_, ?_, ?_, ?_⟩
        · rw [List.map_append, List.nodup_append]
          refine ⟨ht.nodup, by simp, ?_⟩
          intro a ha b hb
          simp only [List.map_cons, List.map_nil, List.mem_singleton] at hb
          rw [hb]
          intro he
          rw [he] at ha
          exact hnot' ha
        · intro b hb
          rcases List.mem_append.1 hb with hb | hb
          · rw [cnt_snoc, ht.counts b hb, if_neg (fun he => hnot b hb he.symm), Nat.add_zero]
          · rw [List.mem_singleton.1 hb, cnt_snoc]
            show 1 = cnt p sv.key + if sv.key = sv.key then 1 else 0
            rw [hzero, if_pos rfl]
        · intro v hv
          rw [List.map_append, List.mem_append]
          rcases List.mem_append.1 hv with hv | hv
          · exact Or.inl (ht.complete v hv)
          · rw [List.mem_singleton.1 hv]
            exact Or.inr (by simp [Bucket.key, SV.key])
        · simp only [List.length_append, List.length_singleton]
          omega

/-! ## Pass 2 -/

/-- The cells of the group of key `k` once the prefix `p` was placed, when the
group has `n` entries in total. -/
def cells (p : List SV) (n : Nat) (k : Nat × Nat) : List (Option SV) :=
  (p.filter fun v => decide (v.key = k)).map some ++ List.replicate (n - cnt p k) none

/-- Prefix sums of the group sizes. -/
def start (keys : List (Nat × Nat)) (tot : Nat × Nat → Nat) (j : Nat) : Nat :=
  ((keys.take j).map tot).sum

theorem cells_length {p : List SV} {n : Nat} {k : Nat × Nat} (h : cnt p k ≤ n) :
    (cells p n k).length = n := by
  unfold cells
  rw [List.length_append, List.length_map, List.length_replicate]
  unfold cnt at *
  omega

theorem flatMap_cells_length {p : List SV} {tot : Nat × Nat → Nat} (keys : List (Nat × Nat))
    (h : ∀ k, cnt p k ≤ tot k) :
    (keys.flatMap fun k => cells p (tot k) k).length = (keys.map tot).sum := by
  induction keys with
  | nil => rfl
  | cons k ks ih =>
    simp only [List.flatMap_cons, List.length_append, List.map_cons, List.sum_cons, ih,
      cells_length (h k)]

theorem cells_snoc_ne {p : List SV} {v : SV} {n : Nat} {k : Nat × Nat} (h : v.key ≠ k) :
    cells (p ++ [v]) n k = cells p n k := by
  unfold cells
  rw [cnt_snoc, if_neg h, List.filter_append]
  simp [h]

theorem cells_snoc_eq {p : List SV} {v : SV} {n : Nat} (h : cnt p v.key < n) :
    cells (p ++ [v]) n v.key = (cells p n v.key).set (cnt p v.key) (some v) := by
  unfold cells
  rw [cnt_snoc, if_pos rfl, List.filter_append]
  have e : n - cnt p v.key = (n - (cnt p v.key + 1)) + 1 := by omega
  rw [e, List.replicate_succ, List.set_append_right _ _ (by simp [cnt])]
  simp [cnt]

/-- Placing one entry in the concatenation of all groups. -/
theorem flatMap_cells_set {p : List SV} {v : SV} {tot : Nat × Nat → Nat}
    {keys : List (Nat × Nat)} (hnd : keys.Nodup) (h : ∀ k, cnt p k ≤ tot k)
    (hv : cnt p v.key < tot v.key) {j : Nat} (hj : keys[j]? = some v.key) :
    (keys.flatMap fun k => cells (p ++ [v]) (tot k) k) =
      (keys.flatMap fun k => cells p (tot k) k).set
        (start keys tot j + cnt p v.key) (some v) := by
  induction keys generalizing j with
  | nil => simp at hj
  | cons k ks ih =>
    obtain ⟨hk, hks⟩ := List.nodup_cons.1 hnd
    cases j with
    | zero =>
      simp only [List.getElem?_cons_zero, Option.some.injEq] at hj
      subst hj
      simp only [List.flatMap_cons, start, List.take_zero, List.map_nil, List.sum_nil,
        Nat.zero_add]
      rw [List.set_append_left _ _ (by rw [cells_length (h _)]; exact hv), cells_snoc_eq hv]
      congr 1
      apply List.flatMap_congr
      intro k' hk'
      exact cells_snoc_ne (fun he => hk (he ▸ hk'))
    | succ j =>
      simp only [List.getElem?_cons_succ] at hj
      have hne : v.key ≠ k := by
        intro he
        apply hk
        rw [← he]
        exact List.mem_of_getElem? hj
      have hs : start (k :: ks) tot (j + 1) = tot k + start ks tot j := by
        simp [start]
      rw [hs]
      simp only [List.flatMap_cons]
      rw [List.set_append_right _ _ (by rw [cells_length (h _)]; omega), cells_length (h _),
        ih hks hj, cells_snoc_ne hne]
      congr 2
      omega

/-- Bucket offsets after the prefix `p` was placed. -/
structure Placed (keys : List (Nat × Nat)) (tot : Nat × Nat → Nat) (p : List SV)
    (bs : List Bucket) : Prop where
  keysEq : bs.map Bucket.key = keys
  offset : ∀ j (h : j < bs.length), bs[j].offset = start keys tot j + cnt p bs[j].key

theorem start_le {keys : List (Nat × Nat)} {tot : Nat × Nat → Nat} {j : Nat} {k : Nat × Nat}
    (hj : keys[j]? = some k) : start keys tot j + tot k ≤ (keys.map tot).sum := by
  induction keys generalizing j with
  | nil => simp at hj
  | cons k' ks ih =>
    cases j with
    | zero =>
      simp only [List.getElem?_cons_zero, Option.some.injEq] at hj
      subst hj
      simp [start]
    | succ j =>
      simp only [List.getElem?_cons_succ] at hj
      have := ih hj
      simp only [start, List.take_succ_cons, List.map_cons, List.sum_cons] at *
      omega

theorem pass2_spec {keys : List (Nat × Nat)} (hnd : keys.Nodup) {sched : List SV}
    (hall : ∀ v ∈ sched, v.key ∈ keys)
    (htot : (keys.map (cnt sched)).sum < 2 ^ 32) {rest p : List SV} {bs : List Bucket}
    {hint : Nat} (hs : p ++ rest = sched) (hb : Placed keys (cnt sched) p bs) :
    pass2 rest bs hint (keys.flatMap fun k => cells p (cnt sched k) k) =
      some (keys.flatMap fun k => cells sched (cnt sched k) k) := by
  induction rest generalizing p bs hint with
  | nil =>
    simp only [List.append_nil] at hs
    subst hs
    rfl
  | cons sv rest ih =>
    have hmono : ∀ k, cnt p k ≤ cnt sched k := by
      intro k
      rw [← hs]
      unfold cnt
      rw [List.filter_append, List.length_append]
      omega
    have hsv : cnt p sv.key < cnt sched sv.key := by
      rw [← hs]
      unfold cnt
      rw [List.filter_append, List.length_append, List.filter_cons]
      simp
    have hmem : sv.key ∈ keys := hall sv (by rw [← hs]; simp)
    unfold pass2
    cases hf : find bs hint sv.key with
    | mk r h' =>
      cases r with
      | none =>
        exfalso
        have hn := find_none hf
        rw [← hb.keysEq] at hmem
        obtain ⟨b, hbm, hk⟩ := List.mem_map.1 hmem
        exact hn b hbm hk
      | some j =>
        dsimp only
        have hj := find_some hf
        have hlt : j < bs.length := by
          by_contra hc
          rw [List.getElem?_eq_none (by omega)] at hj
          simp at hj
        rw [List.getElem?_eq_getElem hlt] at hj ⊢
        have hjk : bs[j].key = sv.key := by simpa using hj
        have hkj : keys[j]? = some sv.key := by
          rw [← hb.keysEq, List.getElem?_map, List.getElem?_eq_getElem hlt, ← hjk]
          rfl
        have hoff := hb.offset j hlt
        rw [hjk] at hoff
        dsimp only
        have hle := start_le (tot := cnt sched) hkj
        rw [if_pos (by rw [hoff, flatMap_cells_length keys hmono]; omega), hoff,
          ← flatMap_cells_set hnd hmono hsv hkj]
        refine ih (p := p ++ [sv]) (by simpa using hs) ?_
        have hkeys : (incOffset bs j).map Bucket.key = bs.map Bucket.key :=
          map_key_modify bs j _ (fun b => rfl)
        refine ⟨by rw [hkeys]; exact hb.keysEq, ?_⟩
        intro i hi
        have hi' : i < bs.length := by simpa [incOffset] using hi
        have ho := hb.offset i hi'
        simp only [incOffset, List.getElem_modify]
        split_ifs with hij
        · subst hij
          show add32 bs[j].offset 1 = _ + cnt (p ++ [sv]) bs[j].key
          rw [ho, cnt_snoc, hjk, if_pos rfl]
          unfold add32
          omega
        · rw [cnt_snoc, ho, if_neg, Nat.add_zero]
          intro he
          apply hij
          have hnd' : (bs.map Bucket.key).Nodup := by rw [hb.keysEq]; exact hnd
          have := (List.nodup_iff_injective_get.1 hnd')
            (a₁ := ⟨j, by simpa using hlt⟩) (a₂ := ⟨i, by simpa using hi'⟩)
            (by simp [hjk, he])
          simpa using this

theorem offsets_keys (bs : List Bucket) (o : Nat) :
    (offsets bs o).map Bucket.key = bs.map Bucket.key := by
  induction bs generalizing o with
  | nil => rfl
  | cons b bs ih => simp only [offsets, List.map_cons, ih]; rfl

theorem offsets_getElem {bs : List Bucket} {o : Nat} {tot : Nat × Nat → Nat}
    (hc : ∀ b ∈ bs, b.count = tot b.key)
    (hsum : o + ((bs.map Bucket.key).map tot).sum < 2 ^ 32) (j : Nat)
    (h : j < (offsets bs o).length) :
    (offsets bs o)[j].offset = o + start (bs.map Bucket.key) tot j := by
  induction bs generalizing o j with
  | nil => simp [offsets] at h
  | cons b bs ih =>
    simp only [List.map_cons, List.sum_cons] at hsum
    have hb := hc b (by simp)
    have hadd : add32 o b.count = o + tot b.key := by
      unfold add32
      rw [hb]
      omega
    cases j with
    | zero => simp [offsets, start]
    | succ j =>
      simp only [offsets, List.getElem_cons_succ]
      rw [ih (fun b' hb' => hc b' (by simp [hb'])) (by rw [hadd]; omega)]
      rw [hadd]
      simp only [start, List.map_cons, List.take_succ_cons, List.sum_cons]
      omega

/-! ## The counted groups -/

theorem sum_cnt {keys : List (Nat × Nat)} (hnd : keys.Nodup) {l : List SV}
    (hall : ∀ v ∈ l, v.key ∈ keys) : (keys.map (cnt l)).sum = l.length := by
  induction l with
  | nil =>
    have : (keys.map (cnt [])) = keys.map (fun _ => 0) := by
      apply List.map_congr_left
      intro k _
      rfl
    rw [this]
    simp
  | cons v l ih =>
    have hrec := ih (fun w hw => hall w (by simp [hw]))
    have hmem := hall v (by simp)
    have hcons : ∀ k, cnt (v :: l) k = cnt l k + if v.key = k then 1 else 0 := by
      intro k
      unfold cnt
      rw [List.filter_cons]
      by_cases h : v.key = k <;> simp [h]
    have hone : ∀ ks : List (Nat × Nat), ks.Nodup →
        (ks.map (fun k => if v.key = k then 1 else 0)).sum = if v.key ∈ ks then 1 else 0 := by
      intro ks
      induction ks with
      | nil => intro _; rfl
      | cons k ks ihk =>
        intro hn
        obtain ⟨hk, hks⟩ := List.nodup_cons.1 hn
        rw [List.map_cons, List.sum_cons, ihk hks]
        by_cases h : v.key = k
        · subst h
          simp [hk]
        · simp [h]
    have hsplit : ∀ ks : List (Nat × Nat), (ks.map (cnt (v :: l))).sum =
        (ks.map (cnt l)).sum + (ks.map (fun k => if v.key = k then 1 else 0)).sum := by
      intro ks
      induction ks with
      | nil => rfl
      | cons k ks ihk =>
        simp only [List.map_cons, List.sum_cons, ihk, hcons]
        omega
    rw [hsplit, hrec, hone keys hnd, if_pos hmem]
    rfl

theorem cells_full (l : List SV) (k : Nat × Nat) :
    cells l (cnt l k) k = (l.filter fun v => decide (v.key = k)).map some := by
  simp [cells]

theorem mapM_id_map_some (l : List SV) : (l.map some).mapM (id : Option SV → Option SV) = some l := by
  induction l with
  | nil => rfl
  | cons a l ih =>
    rw [List.map_cons, List.mapM_cons, ih]
    rfl

theorem filter_flatMap_key {keys : List (Nat × Nat)} (hnd : keys.Nodup) (l : List SV)
    (k : Nat × Nat) (hk : k ∈ keys) :
    (keys.flatMap fun k => l.filter fun v => decide (v.key = k)).filter
      (fun v => decide (v.key = k)) = l.filter (fun v => decide (v.key = k)) := by
  induction keys with
  | nil => simp at hk
  | cons k' ks ih =>
    obtain ⟨hk', hks⟩ := List.nodup_cons.1 hnd
    rw [List.flatMap_cons, List.filter_append]
    by_cases h : k = k'
    · subst h
      rw [List.filter_filter]
      have h1 : (ks.flatMap fun k => l.filter fun v => decide (v.key = k)).filter
          (fun v => decide (v.key = k)) = [] := by
        rw [List.filter_eq_nil_iff]
        intro v hv hd
        obtain ⟨k2, hk2, hv2⟩ := List.mem_flatMap.1 hv
        have := (List.mem_filter.1 hv2).2
        have e1 := of_decide_eq_true this
        have e2 := of_decide_eq_true hd
        exact hk' (by rw [← e2, e1]; exact hk2)
      rw [h1, List.append_nil]
      apply List.filter_congr
      intro v _
      simp
    · have hin : k ∈ ks := by
        rcases List.mem_cons.1 hk with h' | h'
        · exact absurd h' h
        · exact h'
      rw [ih hks hin]
      have h1 : (l.filter fun v => decide (v.key = k')).filter
          (fun v => decide (v.key = k)) = [] := by
        rw [List.filter_eq_nil_iff]
        intro v hv hd
        have := (List.mem_filter.1 hv).2
        have e1 := of_decide_eq_true this
        have e2 := of_decide_eq_true hd
        exact h (e2 ▸ e1)
      rw [h1, List.nil_append]

theorem pairwise_flatMap_key {keys : List (Nat × Nat)}
    (hs : keys.Pairwise fun a b => less b a = false) (l : List SV) :
    (keys.flatMap fun k => l.filter fun v => decide (v.key = k)).Pairwise InOrder := by
  induction keys with
  | nil => simp
  | cons k ks ih =>
    obtain ⟨h1, h2⟩ := List.pairwise_cons.1 hs
    rw [List.flatMap_cons, List.pairwise_append]
    refine ⟨?_, ih h2, ?_⟩
    · rw [List.pairwise_iff_forall_sublist]
      intro a b hab
      have ha := (List.mem_filter.1 (hab.subset (by simp : a ∈ [a, b]))).2
      have hb := (List.mem_filter.1 (hab.subset (by simp : b ∈ [a, b]))).2
      rw [← not_less_iff, of_decide_eq_true ha, of_decide_eq_true hb]
      unfold less
      simp
    · intro a ha b hb
      have ha := (List.mem_filter.1 ha).2
      obtain ⟨k2, hk2, hb2⟩ := List.mem_flatMap.1 hb
      have hb3 := (List.mem_filter.1 hb2).2
      rw [← not_less_iff, of_decide_eq_true ha, of_decide_eq_true hb3]
      exact h1 k2 hk2

theorem perm_of_filters {a b : List SV}
    (h : ∀ k, a.filter (fun v => decide (v.key = k)) = b.filter (fun v => decide (v.key = k))) :
    a.Perm b := by
  classical
  rw [List.perm_iff_count]
  intro v
  have h1 := congrArg (List.count v) (h v.key)
  rwa [List.count_filter (by simp), List.count_filter (by simp)] at h1

theorem sortedSchedule_of {sched out : List SV} (hsort : out.Pairwise InOrder)
    (hst : ∀ k, out.filter (fun v => decide (v.key = k)) =
      sched.filter (fun v => decide (v.key = k))) : SortedSchedule sched out := by
  refine ⟨perm_of_filters hst, hsort, ?_⟩
  intro s c
  have := hst (s, c)
  simpa [SV.key, Prod.ext_iff] using this

/-! ## C20 -/

/-- There is only one list that meets the specification. -/
theorem SortedSchedule.unique {sched a b : List SV} (ha : SortedSchedule sched a)
    (hb : SortedSchedule sched b) : a = b := by
  have hf : ∀ k, a.filter (fun v => decide (v.key = k)) =
      b.filter (fun v => decide (v.key = k)) := by
    intro k
    have h1 := ha.stable k.1 k.2
    have h2 := hb.stable k.1 k.2
    simpa [SV.key, Prod.ext_iff] using h1.trans h2.symm
  have hsa := ha.sorted
  have hsb := hb.sorted
  clear ha hb
  induction a generalizing b with
  | nil =>
    have hp := perm_of_filters hf
    exact hp.nil_eq
  | cons x xs ih =>
    cases b with
    | nil => exact absurd (perm_of_filters hf).symm.nil_eq (by simp)
    | cons y ys =>
      obtain ⟨hx, hxs⟩ := List.pairwise_cons.1 hsa
      obtain ⟨hy, hys⟩ := List.pairwise_cons.1 hsb
      have hp := perm_of_filters hf
      have hkey : x.key = y.key := by
        have hxm : x ∈ y :: ys := hp.subset (by simp)
        have hym : y ∈ x :: xs := hp.symm.subset (by simp)
        rcases List.mem_cons.1 hxm with h | h
        · rw [h]
        rcases List.mem_cons.1 hym with h' | h'
        · rw [h']
        exact eq_of_not_less ((not_less_iff _ _).2 (hy x h)) ((not_less_iff _ _).2 (hx y h'))
      have hxy : x = y := by
        have := hf x.key
        rw [List.filter_cons, List.filter_cons, if_pos (by simp), if_pos (by simp [hkey])] at this
        exact (List.cons.inj this).1
      subst hxy
      congr 1
      refine ih ?_ hxs hys
      intro k
      have := hf k
      rw [List.filter_cons, List.filter_cons] at this
      split_ifs at this with hk
      · exact (List.cons.inj this).2
      · exact this

/-- **C20.** For every schedule, whichever of its code paths is taken, sorting
performs no invalid access and yields the schedule ordered by decreasing size
and increasing scope with the traversal order among equals. -/
theorem C20_sorted (stdSort : List Bucket → List Bucket) (stableSort : List SV → List SV)
    (hstd : SortOk Bucket.key stdSort) (hstable : StableSortOk SV.key stableSort)
    (sched : List SV) (hlen : sched.length < 2 ^ 32) :
    ∃ out, scheduleSort stdSort stableSort sched = some out ∧ SortedSchedule sched out := by
  unfold scheduleSort
  cases h1 : pass1 sched [] 0 with
  | none =>
    refine ⟨stableSort sched, rfl, ?_⟩
    refine sortedSchedule_of ?_ (hstable.stable sched)
    exact (hstable.sorted sched).imp fun h => (not_less_iff _ _).1 h
  | some bs =>
    have ht : Tally sched bs := by
      have := pass1_spec (p := []) (rest := sched) (bs := []) (hint := 0) (by simpa using hlen)
        ⟨by simp, by simp, by simp, by simp⟩ bs h1
      simpa using this
    dsimp only
    split_ifs with hone
    · refine ⟨sched, rfl, sortedSchedule_of ?_ (fun _ => rfl)⟩
      rw [List.pairwise_iff_forall_sublist]
      intro a b hab
      have ha := ht.complete a (hab.subset (by simp))
      have hb := ht.complete b (hab.subset (by simp))
      have hkey : a.key = b.key := by
        match bs, hone with
        | [], _ => simp at ha
        | [c], _ =>
          simp only [List.map_cons, List.map_nil, List.mem_singleton] at ha hb
          rw [ha, hb]
      rw [← not_less_iff, hkey]
      simp [less]
    · have hperm := hstd.perm bs
      have hkp : ((stdSort bs).map Bucket.key).Perm (bs.map Bucket.key) := hperm.map _
      generalize hkeys : (stdSort bs).map Bucket.key = keys at hkp
      have hnd : keys.Nodup := hkp.nodup_iff.2 ht.nodup
      have hall : ∀ v ∈ sched, v.key ∈ keys := fun v hv => hkp.mem_iff.2 (ht.complete v hv)
      have hsum := sum_cnt hnd hall
      have hinit : (List.replicate sched.length (none : Option SV)) =
          keys.flatMap fun k => cells [] (cnt sched k) k := by
        have : (keys.flatMap fun k => cells [] (cnt sched k) k) =
            List.replicate ((keys.map (cnt sched)).sum) none := by
          clear hkeys hkp hnd hall hsum
          induction keys with
          | nil => rfl
          | cons k ks ih =>
            rw [List.flatMap_cons, ih, List.map_cons, List.sum_cons, List.replicate_add]
            simp [cells, cnt]
        rw [this, hsum]
      rw [hinit, pass2_spec hnd hall (by rw [hsum]; exact hlen) (List.nil_append sched)]
      · refine ⟨keys.flatMap fun k => sched.filter fun v => decide (v.key = k), ?_, ?_⟩
        · rw [Option.bind_some]
          have : (keys.flatMap fun k => cells sched (cnt sched k) k) =
              (keys.flatMap fun k => sched.filter fun v => decide (v.key = k)).map some := by
            rw [List.map_flatMap]
            apply List.flatMap_congr
            intro k _
            exact cells_full sched k
          rw [this, mapM_id_map_some]
        · refine sortedSchedule_of ?_ ?_
          · apply pairwise_flatMap_key
            rw [← hkeys, List.pairwise_map]
            exact hstd.sorted bs
          · intro k
            by_cases hk : k ∈ keys
            · exact filter_flatMap_key hnd sched k hk
            · have e1 : sched.filter (fun v => decide (v.key = k)) = [] := by
                rw [List.filter_eq_nil_iff]
                intro v hv hd
                exact hk (of_decide_eq_true hd ▸ hall v hv)
              rw [e1, List.filter_eq_nil_iff]
              intro v hv hd
              obtain ⟨k2, hk2, hv2⟩ := List.mem_flatMap.1 hv
              have := (List.mem_filter.1 hv2).1
              exact hk (of_decide_eq_true hd ▸ hall v this)
      · refine ⟨by rw [offsets_keys, hkeys], ?_⟩
        intro j hj
        rw [offsets_getElem (tot := cnt sched) ?_ ?_ j hj, hkeys]
        · simp [cnt]
        · intro b hb
          exact ht.counts b (hperm.mem_iff.1 hb)
        · rw [hkeys, hsum]
          simpa using hlen

/-- **C20, path independence.** The bucket path and the comparison path give
the same schedule: the result always equals that of `std::stable_sort`. -/
theorem C20_paths_agree (stdSort : List Bucket → List Bucket)
    (stableSort : List SV → List SV) (hstd : SortOk Bucket.key stdSort)
    (hstable : StableSortOk SV.key stableSort) (sched : List SV)
    (hlen : sched.length < 2 ^ 32) :
    scheduleSort stdSort stableSort sched = some (stableSort sched) := by
  obtain ⟨out, h1, h2⟩ := C20_sorted stdSort stableSort hstd hstable sched hlen
  rw [h1]
  congr 1
  refine h2.unique (sortedSchedule_of ?_ (hstable.stable sched))
  exact (hstable.sorted sched).imp fun h => (not_less_iff _ _).1 h

/-! ## The contracts are satisfiable -/

/-- A stable insertion. -/
def insKey {α : Type} (key : α → Nat × Nat) (x : α) : List α → List α
  | [] => [x]
  | y :: ys => if less (key y) (key x) then y :: insKey key x ys else x :: y :: ys

/-- A stable insertion sort, used to show that the contracts can be met. -/
def insSort {α : Type} (key : α → Nat × Nat) : List α → List α
  | [] => []
  | x :: xs => insKey key x (insSort key xs)

theorem insKey_perm {α : Type} (key : α → Nat × Nat) (x : α) (l : List α) :
    (insKey key x l).Perm (x :: l) := by
  induction l with
  | nil => exact List.Perm.refl _
  | cons y ys ih =>
    unfold insKey
    split_ifs
    · exact (ih.cons y).trans (List.Perm.swap x y ys)
    · exact List.Perm.refl _

theorem insSort_ok {α : Type} (key : α → Nat × Nat) : StableSortOk key (insSort key) := by
  refine ⟨⟨?_, ?_⟩, ?_⟩
  · intro l
    induction l with
    | nil => exact List.Perm.refl _
    | cons x xs ih => exact (insKey_perm key x _).trans (ih.cons x)
  · intro l
    induction l with
    | nil => exact List.Pairwise.nil
    | cons x xs ih =>
      show (insKey key x (insSort key xs)).Pairwise _
      generalize insSort key xs = l at ih
      induction l with
      | nil => simp [insKey]
      | cons y ys ih2 =>
        obtain ⟨hy, hys⟩ := List.pairwise_cons.1 ih
        unfold insKey
        split_ifs with h
        · rw [List.pairwise_cons]
          refine ⟨?_, ih2 hys⟩
          intro b hb
          rcases List.mem_cons.1 ((insKey_perm key x ys).mem_iff.1 hb) with rfl | hb
          · exact less_asymm h
          · exact hy b hb
        · rw [List.pairwise_cons]
          refine ⟨?_, ih⟩
          intro b hb
          have hxy : less (key y) (key x) = false := by simpa using h
          rcases List.mem_cons.1 hb with rfl | hb
          · exact hxy
          · exact not_less_trans hxy (hy b hb)
  · intro l k
    induction l with
    | nil => rfl
    | cons x xs ih =>
      have : ∀ m : List α, (insKey key x m).filter (fun a => decide (key a = k)) =
          (x :: m).filter (fun a => decide (key a = k)) := by
        intro m
        induction m with
        | nil => rfl
        | cons y ys ih2 =>
          unfold insKey
          split_ifs with h
          · rw [List.filter_cons, ih2, List.filter_cons, List.filter_cons, List.filter_cons]
            by_cases hy : key y = k <;> by_cases hx : key x = k
            · exfalso
              rw [hy, hx] at h
              simp [less] at h
            · simp [hy, hx]
            · simp [hy, hx]
            · simp [hy, hx]
          · rfl
      show (insKey key x (insSort key xs)).filter _ = _
      rw [this, List.filter_cons, List.filter_cons, ih]

/-- Two sizes and two scopes, interleaved: the bucket path reorders the entries. -/
example : scheduleSort (insSort Bucket.key) (insSort SV.key)
    [⟨1, 7, 1⟩, ⟨8, 7, 2⟩, ⟨8, 3, 3⟩, ⟨1, 7, 4⟩, ⟨8, 7, 5⟩] =
    some [⟨8, 3, 3⟩, ⟨8, 7, 2⟩, ⟨8, 7, 5⟩, ⟨1, 7, 1⟩, ⟨1, 7, 4⟩] := by
  decide +kernel

/-- 33 distinct keys: the comparison path is taken. -/
example : pass1 ((List.range 33).map fun i => ⟨1, i, i⟩) [] 0 = none := by decide +kernel

example : ∃ out, scheduleSort (insSort Bucket.key) (insSort SV.key)
    ((List.range 33).map fun i => ⟨1, 40 - i, i⟩) = some out ∧
    SortedSchedule ((List.range 33).map fun i => ⟨1, 40 - i, i⟩) out :=
  C20_sorted _ _ (insSort_ok _).toSortOk (insSort_ok _) _ (by simp)

end Verif.Eval
