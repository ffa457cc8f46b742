import Mathlib.Data.List.Basic
import Mathlib.Tactic.Common
import Mathlib.Tactic.NormNum

/-!
# C37, C58: sweeping the kernel cache

Model of `jitc_cache_sweep_thread` and `jitc_cache_sweep` (`/repo/src/io.cpp`), and proofs.
-/
namespace Verif.Cache

/-- An item of the cache directory, as reported by the directory iterator.  `ok` is false if its
type, size or time could not be determined. -/
structure Item where
  name : List Char
  regular : Bool
  ok : Bool
  size : Nat
  mtime : Int
deriving DecidableEq

/-- `std::filesystem::path::extension` of a file name (C++17, 30.10.8.4.9): the part from the last
period on, empty if there is no period or only a leading one; `..` has none. -/
def extension (name : List Char) : List Char :=
  if name = "..".toList then []
  else
    let r := name.reverse
    let suf := r.takeWhile (· ≠ '.')
    if suf.length + 1 < r.length then '.' :: suf.reverse else []

/-- The listing (io.cpp:568-583): regular files with extension `.bin` -/
def listing (dir : List Item) : List Item :=
  dir.filter fun e => extension e.name = ".bin".toList && (e.regular && e.ok)

/-- Sum of sizes, as computed in `uintmax_t` (io.cpp:582) -/
def totalSize (l : List Item) : Nat := l.foldl (fun t e => (t + e.size) % 2 ^ 64) 0

/-- The eviction loop (io.cpp:592-600).  `rm e` tells whether the removal of `e` succeeds (it fails
e.g. if a peer was faster).  Returns the removed files and the final value of `total`. -/
def evict (rm : Item → Bool) (target : Nat) : Nat → List Item → List Item × Nat
  | total, [] => ([], total)
  | total, e :: es =>
    if total ≤ target then ([], total)
    else if rm e then
      let r := evict rm target ((total + 2 ^ 64 - e.size) % 2 ^ 64) es
      (e :: r.1, r.2)
    else evict rm target total es

/-- `jitc_cache_sweep_thread` (io.cpp:555-612): the set of files removed.  `sorted` is the result
of `std::sort`, some arrangement of the listing in order of modification time (see `SortedBy`). -/
def sweep (rm : Item → Bool) (max_size : Nat) (dir sorted : List Item) : List Item :=
  let total := totalSize (listing dir)
  if max_size ≠ 0 ∧ total > max_size then
    (evict rm (max_size / 5 * 4) total sorted).1
  else []

/-- What `std::sort` guarantees: a permutation in ascending order of time (ties in any order) -/
def SortedBy (dir sorted : List Item) : Prop :=
  sorted.Perm (listing dir) ∧ sorted.Pairwise (fun a b => a.mtime ≤ b.mtime)

/-! ### Specification -/

/-- The cache entries of a directory: readable regular files with a name ending in `.bin` -/
def Entries (dir : List Item) : List Item :=
  dir.filter fun e => e.regular && e.ok && (e.name.length > 4 && ".bin".toList.isSuffixOf e.name)

/-- Sum of the sizes -/
def bytes (l : List Item) : Nat := (l.map Item.size).sum

/-! ### Proofs -/

theorem takeWhile_dot (l : List Char) : (∀ c ∈ l.takeWhile (· ≠ '.'), c ≠ '.') ∧
    (l.takeWhile (· ≠ '.') = l ∨ ∃ r, l = l.takeWhile (· ≠ '.') ++ '.' :: r) := by
  induction l with
  | nil => simp
  | cons c cs ih =>
    by_cases h : c = '.'
    · subst h; simp
    · have e : (c :: cs).takeWhile (· ≠ '.') = c :: cs.takeWhile (· ≠ '.') := by simp [h]
      rw [e]
      obtain ⟨i1, i2⟩ := ih
      refine ⟨?_, ?_⟩
      · intro d hd
        rcases List.mem_cons.1 hd with rfl | hd
        · exact h
        · exact i1 d hd
      · rcases i2 with i2 | ⟨r, i2⟩
        · exact Or.inl (by rw [i2])
        · refine Or.inr ⟨r, ?_⟩
          rw [List.cons_append, ← i2]

theorem takeWhile_of {a r : List Char} (h : ∀ c ∈ a, c ≠ '.') : (a ++ '.' :: r).takeWhile (· ≠ '.') = a := by
  induction a with
  | nil => simp
  | cons c cs ih =>
    have h1 := h c (by simp)
    simp only [List.cons_append]
    rw [List.takeWhile_cons]
    simp only [ne_eq, h1, not_false_eq_true, decide_true, if_true]
    rw [ih (fun c hc => h c (by simp [hc]))]

/-- The extension test of the code agrees with the specification. -/
theorem extension_bin (name : List Char) :
    extension name = ".bin".toList ↔ name.length > 4 ∧ ".bin".toList <:+ name := by
  unfold extension
  have hb : ".bin".toList = '.' :: ['b', 'i', 'n'] := rfl
  constructor
  · intro h
    split at h
    · exact absurd h (by decide)
    dsimp only at h
    split at h
    · rename_i hl
      rw [hb] at h
      injection h with _ h
      have hs : name.reverse.takeWhile (· ≠ '.') = ['n', 'i', 'b'] := by
        have := congrArg List.reverse h; simpa using this
      rw [hs] at hl
      obtain ⟨-, h2⟩ := takeWhile_dot name.reverse
      rw [hs] at h2
      rcases h2 with h2 | ⟨r, h2⟩
      · rw [← h2] at hl; simp at hl
      · refine ⟨by simpa using hl, r.reverse, ?_⟩
        have := congrArg List.reverse h2
        simp at this
        rw [this]; simp
    · exact absurd h (by decide)
  · rintro ⟨hl, pre, h⟩
    subst h
    have hp : pre ≠ [] := by rintro rfl; simp at hl
    rw [if_neg]
    · dsimp only
      have e : (pre ++ ".bin".toList).reverse = ['n', 'i', 'b'] ++ '.' :: pre.reverse := by simp [hb]
      rw [e, takeWhile_of (by decide), if_pos]
      · rfl
      · have : 0 < pre.length := List.length_pos_iff.2 hp
        simp; omega
    · intro hc
      have := congrArg List.length hc
      simp at this

theorem listing_eq (dir : List Item) : listing dir = Entries dir := by
  unfold listing Entries
  apply List.filter_congr
  intro e _
  have := extension_bin e.name
  by_cases h : extension e.name = ".bin".toList
  · have h2 := this.1 h
    simp only [decide_eq_true h, decide_eq_true h2.1, List.isSuffixOf_iff_suffix.2 h2.2, Bool.true_and, Bool.and_true]
  · simp only [decide_eq_false h, Bool.false_and]
    by_cases h1 : e.name.length > 4
    · have : ".bin".toList.isSuffixOf e.name = false := by
        rw [Bool.eq_false_iff]
        intro hc
        exact h (this.2 ⟨h1, List.isSuffixOf_iff_suffix.1 hc⟩)
      simp only [this, Bool.and_false]
    · simp only [decide_eq_false h1, Bool.false_and, Bool.and_false]

theorem foldl_size (l : List Item) : ∀ t, t < 2 ^ 64 → t + bytes l < 2 ^ 64 →
    l.foldl (fun t e => (t + e.size) % 2 ^ 64) t = t + bytes l := by
  induction l with
  | nil => intro t _ _; simp [bytes]
  | cons e es ih =>
    intro t h1 h2
    simp only [List.foldl_cons, bytes, List.map_cons, List.sum_cons] at *
    rw [Nat.mod_eq_of_lt (by omega), ih _ (by omega) (by omega)]
    omega

theorem totalSize_eq {l : List Item} (h : bytes l < 2 ^ 64) : totalSize l = bytes l := by
  unfold totalSize; rw [foldl_size l 0 (by norm_num) (by omega)]; omega

/-- The files that remain -/
def kept (l removed : List Item) : List Item := l.filter (· ∉ removed)

/-- Everything about the eviction loop, for a duplicate-free list. -/
theorem evict_spec (rm : Item → Bool) (target : Nat) : ∀ (l : List Item) (total : Nat), l.Nodup →
    l.Pairwise (fun a b => a.mtime ≤ b.mtime) → bytes l ≤ total → total < 2 ^ 64 →
    let d := (evict rm target total l).1
    (∀ e ∈ d, e ∈ l ∧ rm e) ∧ bytes (kept l d) + bytes d = bytes l ∧
    (∀ a ∈ d, ∀ b ∈ l, b ∉ d → rm b → a.mtime ≤ b.mtime) ∧
    (total - bytes d ≤ target ∨ ∀ b ∈ l, b ∉ d → rm b = false) ∧
    (∀ pre e, d = pre ++ [e] → target + bytes pre < total) := by
  intro l
  induction l with
  | nil => intro total _ _ _ _; simp [evict, kept, bytes]
  | cons e es ih =>
    intro total hn hp hb ht
    rw [List.nodup_cons] at hn
    rw [List.pairwise_cons] at hp
    have hbe : bytes (e :: es) = e.size + bytes es := by simp [bytes]
    rw [hbe] at hb
    unfold evict
    split
    · rename_i hle
      refine ⟨by simp, ?_, by simp, Or.inl (by simp [bytes]; exact hle), by simp⟩
      simp [kept, bytes]
    · rename_i hgt
      split
      · rename_i hrm
        have hsub : (total + 2 ^ 64 - e.size) % 2 ^ 64 = total - e.size := by
          rw [show total + 2 ^ 64 - e.size = total - e.size + 2 ^ 64 by omega, Nat.add_mod_right, Nat.mod_eq_of_lt (by omega)]
        dsimp only
        rw [hsub]
        obtain ⟨i1, i2, i3, i4, i5⟩ := ih (total - e.size) hn.2 hp.2 (by omega) (by omega)
        generalize (evict rm target (total - e.size) es).1 = d at *
        have hbd : bytes (e :: d) = e.size + bytes d := by simp [bytes]
        have hed : e ∉ d := fun h => hn.1 (i1 e h).1
        refine ⟨?_, ?_, ?_, ?_, ?_⟩
        · intro x hx
          rcases List.mem_cons.1 hx with rfl | hx
          · exact ⟨by simp, hrm⟩
          · exact ⟨by simp [(i1 x hx).1], (i1 x hx).2⟩
        · have hk : kept (e :: es) (e :: d) = kept es d := by
            unfold kept
            rw [List.filter_cons, if_neg (by simp)]
            apply List.filter_congr
            intro x hx
            have : x ≠ e := by rintro rfl; exact hn.1 hx
            simp [this]
          rw [hk, hbd, hbe]; omega
        · intro a ha b hb' hbd' hrb
          rcases List.mem_cons.1 hb' with rfl | hb2
          · simp at hbd'
          rcases List.mem_cons.1 ha with rfl | ha
          · exact hp.1 b hb2
          · exact i3 a ha b hb2 (by simp at hbd'; exact hbd'.2) hrb
        · rcases i4 with i4 | i4
          · exact Or.inl (by rw [hbd]; omega)
          · refine Or.inr ?_
            intro b hb' hbd'
            rcases List.mem_cons.1 hb' with rfl | hb'
            · simp at hbd'
            · exact i4 b hb' (by simp at hbd'; exact hbd'.2)
        · intro pre x hx
          cases pre with
          | nil => simp [bytes]; omega
          | cons p pre =>
            rw [List.cons_append] at hx
            injection hx with h1 h2
            subst h1
            have := i5 pre x h2
            have : bytes (e :: pre) = e.size + bytes pre := by simp [bytes]
            rw [this]; omega
      · rename_i hrm
        obtain ⟨i1, i2, i3, i4, i5⟩ := ih total hn.2 hp.2 (by omega) ht
        generalize (evict rm target total es).1 = d at *
        have hed : e ∉ d := fun h => hn.1 (i1 e h).1
        refine ⟨fun x hx => ⟨by simp [(i1 x hx).1], (i1 x hx).2⟩, ?_, ?_, ?_, i5⟩
        · have hk : kept (e :: es) d = e :: kept es d := by
            unfold kept; rw [List.filter_cons, if_pos (by simp [hed])]
          rw [hk, hbe]
          have : bytes (e :: kept es d) = e.size + bytes (kept es d) := by simp [bytes]
          rw [this]; omega
        · intro a ha b hb' hbd' hrb
          rcases List.mem_cons.1 hb' with rfl | hb'
          · exact absurd hrb hrm
          · exact i3 a ha b hb' hbd' hrb
        · rcases i4 with i4 | i4
          · exact Or.inl i4
          · refine Or.inr ?_
            intro b hb' hbd'
            rcases List.mem_cons.1 hb' with rfl | hb'
            · simpa using hrm
            · exact i4 b hb' hbd'

variable {rm : Item → Bool} {max : Nat} {dir sorted : List Item}

/-- **C37.**  Only cache entries are ever removed, and only if the removal succeeds. -/
theorem C37_only_entries (hs : SortedBy dir sorted) (e : Item) (h : e ∈ sweep rm max dir sorted) :
    e ∈ Entries dir ∧ rm e := by
  unfold sweep at h
  dsimp only at h
  split at h
  · have key : ∀ (l : List Item) t, ∀ e ∈ (evict rm (max / 5 * 4) t l).1, e ∈ l ∧ rm e := by
      intro l
      induction l with
      | nil => intro t e he; simp [evict] at he
      | cons x xs ih =>
        intro t e he
        unfold evict at he
        split at he
        · simp at he
        · split at he
          · rename_i hx
            rcases List.mem_cons.1 he with rfl | he
            · exact ⟨by simp, hx⟩
            · have := ih _ e he; exact ⟨by simp [this.1], this.2⟩
          · have := ih _ e he; exact ⟨by simp [this.1], this.2⟩
    obtain ⟨h1, h2⟩ := key _ _ e h
    rw [← listing_eq]
    exact ⟨hs.1.mem_iff.1 h1, h2⟩
  · simp at h

/-- **C37.**  Nothing is removed while the entries are within the limit, or if there is no limit. -/
theorem C37_within (hsum : bytes (Entries dir) < 2 ^ 64) (h : max = 0 ∨ bytes (Entries dir) ≤ max) :
    sweep rm max dir sorted = [] := by
  unfold sweep
  rw [listing_eq, totalSize_eq hsum]
  dsimp only
  rw [if_neg]
  rintro ⟨h1, h2⟩
  omega

/-- **C37.**  If the limit is exceeded and the removals succeed, the remaining entries are within
four fifths of the limit. -/
theorem C37_below (hs : SortedBy dir sorted) (hn : (Entries dir).Nodup) (hsum : bytes (Entries dir) < 2 ^ 64)
    (hm : max ≠ 0) (hgt : max < bytes (Entries dir)) (hrm : ∀ e ∈ Entries dir, rm e) :
    bytes (kept (Entries dir) (sweep rm max dir sorted)) ≤ max / 5 * 4 := by
  unfold sweep
  obtain ⟨hp, ht⟩ := hs
  rw [listing_eq] at hp ⊢
  rw [totalSize_eq hsum]
  dsimp only
  rw [if_pos ⟨hm, hgt⟩]
  have hbs : bytes sorted = bytes (Entries dir) := by unfold bytes; exact (hp.map _).sum_nat
  obtain ⟨i1, i2, -, i4, -⟩ := evict_spec rm (max / 5 * 4) sorted (bytes (Entries dir)) (hp.nodup_iff.2 hn) ht
    (Nat.le_of_eq hbs) hsum
  generalize (evict rm (max / 5 * 4) (bytes (Entries dir)) sorted).1 = d at *
  have hk : bytes (kept (Entries dir) d) = bytes (kept sorted d) := by
    unfold bytes kept; exact ((hp.symm.filter _).map _).sum_nat
  rw [hk]
  rcases i4 with i4 | i4
  · omega
  · have : kept sorted d = [] := by
      unfold kept
      rw [List.filter_eq_nil_iff]
      intro b hb hc
      have := i4 b hb (by simpa using hc)
      rw [hrm b (hp.mem_iff.1 hb)] at this
      cases this
    rw [this]; simp [bytes]

/-- **C37.**  Oldest first: an entry is only removed if all entries that are kept (although they
could be removed) are at least as recent. -/
theorem C37_oldest_first (hs : SortedBy dir sorted) (hn : (Entries dir).Nodup) (hsum : bytes (Entries dir) < 2 ^ 64)
    {a b : Item} (ha : a ∈ sweep rm max dir sorted) (hb : b ∈ kept (Entries dir) (sweep rm max dir sorted)) (hrb : rm b) :
    a.mtime ≤ b.mtime := by
  unfold sweep at ha hb
  obtain ⟨hp, ht⟩ := hs
  rw [listing_eq] at hp ha hb
  rw [totalSize_eq hsum] at ha hb
  dsimp only at ha hb
  split at ha
  · rename_i hc
    rw [if_pos hc] at hb
    have hbs : bytes sorted = bytes (Entries dir) := by unfold bytes; exact (hp.map _).sum_nat
    obtain ⟨-, -, i3, -, -⟩ := evict_spec rm (max / 5 * 4) sorted (bytes (Entries dir)) (hp.nodup_iff.2 hn) ht
      (Nat.le_of_eq hbs) hsum
    unfold kept at hb
    rw [List.mem_filter] at hb
    exact i3 a ha b (hp.mem_iff.2 hb.1) (by simpa using hb.2) hrb
  · simp at ha

/-- **C37.**  No more than necessary: when the last entry was removed, the others removed so far
were not enough to get down to four fifths of the limit. -/
theorem C37_minimal (hs : SortedBy dir sorted) (hn : (Entries dir).Nodup) (hsum : bytes (Entries dir) < 2 ^ 64)
    {pre : List Item} {e : Item} (h : sweep rm max dir sorted = pre ++ [e]) :
    max / 5 * 4 + bytes pre < bytes (Entries dir) := by
  unfold sweep at h
  obtain ⟨hp, ht⟩ := hs
  rw [listing_eq] at hp h
  rw [totalSize_eq hsum] at h
  dsimp only at h
  split at h
  · have hbs : bytes sorted = bytes (Entries dir) := by unfold bytes; exact (hp.map _).sum_nat
    obtain ⟨-, -, -, -, i5⟩ := evict_spec rm (max / 5 * 4) sorted (bytes (Entries dir)) (hp.nodup_iff.2 hn) ht
      (Nat.le_of_eq hbs) hsum
    exact i5 pre e h
  · simp at h

/-- A directory with three entries, a leftover temporary file and the stamp -/
def exDir : List Item :=
  [⟨"aa.llvm.v6.bin".toList, true, true, 60, 3⟩, ⟨"bb.llvm.v6.bin".toList, true, true, 50, 1⟩,
   ⟨"cc.llvm.v6.bin".toList, true, true, 40, 2⟩, ⟨"dd.llvm.v6.bin.17.tmp".toList, true, true, 500, 0⟩,
   ⟨"sweep.stamp".toList, true, true, 0, 9⟩]
/-- Its entries, by age -/
def exSorted : List Item :=
  [⟨"bb.llvm.v6.bin".toList, true, true, 50, 1⟩, ⟨"cc.llvm.v6.bin".toList, true, true, 40, 2⟩,
   ⟨"aa.llvm.v6.bin".toList, true, true, 60, 3⟩]

example : SortedBy exDir exSorted ∧ (Entries exDir).Nodup ∧ bytes (Entries exDir) = 150 ∧
    sweep (fun _ => true) 100 exDir exSorted =
      [⟨"bb.llvm.v6.bin".toList, true, true, 50, 1⟩, ⟨"cc.llvm.v6.bin".toList, true, true, 40, 2⟩] := by
  refine ⟨⟨?_, ?_⟩, ?_, ?_, ?_⟩
  · rw [← List.isPerm_iff]; decide +kernel
  · decide +kernel
  · decide +kernel
  · decide +kernel
  · decide +kernel

/-- Temporary files left behind by a crash are neither counted nor ever removed. -/
theorem C37_tmp_ignored (hs : SortedBy dir sorted) (e : Item) (h : ".tmp".toList <:+ e.name) :
    e ∉ sweep rm max dir sorted := by
  intro hc
  have := (C37_only_entries hs e hc).1
  unfold Entries at this
  rw [List.mem_filter] at this
  simp only [Bool.and_eq_true, List.isSuffixOf_iff_suffix] at this
  obtain ⟨p, hp⟩ := h
  obtain ⟨q, hq⟩ := this.2.2.2
  have e := hp.trans hq.symm
  have := congrArg List.reverse e
  simp at this

/-! ### C58: at most one sweep per hour?

`jitc_cache_sweep` (io.cpp:614-640) is executed by every process that initializes the library. -/

/-- What a process has done: nothing, read the time of the stamp and decided to continue, removed
the stamp, recreated it and started a sweep. -/
inductive Stage where
  | start | decided | claimed | done
deriving DecidableEq

/-- The stamp file's modification time, the clock (in seconds), the stages of the processes and
the times at which sweeps were started -/
structure Sweeps where
  stamp : Option Int
  now : Int
  stage : Nat → Stage
  sweeps : List Int

/-- One hour (io.cpp:70) -/
def interval : Int := 3600

/-- Steps of the processes -/
inductive SStep : Sweeps → Sweeps → Prop
  /-- time passes -/
  | tick (s : Sweeps) (t : Int) : s.now ≤ t → SStep s { s with now := t }
  /-- io.cpp:621-626: the test succeeds if the stamp is missing, old or from the future -/
  | test (s : Sweeps) (i : Nat) : s.stage i = .start →
      (∀ m, s.stamp = some m → ¬ (m ≤ s.now ∧ s.now - m < interval)) →
      SStep s { s with stage := fun j => if j = i then .decided else s.stage j }
  /-- io.cpp:630: removal of the stamp -/
  | claim (s : Sweeps) (i : Nat) : s.stage i = .decided → s.stamp.isSome →
      SStep s { s with stamp := none, stage := fun j => if j = i then .claimed else s.stage j }
  /-- io.cpp:633-639: recreation of the stamp, start of the sweep -/
  | run (s : Sweeps) (i : Nat) : s.stage i = .claimed →
      SStep s { s with stamp := some s.now, stage := (fun j => if j = i then .done else s.stage j), sweeps := s.now :: s.sweeps }

/-- Sequences of steps -/
inductive SSteps : Sweeps → Sweeps → Prop
  | refl (s) : SSteps s s
  | step {s t u} : SSteps s t → SStep t u → SSteps s u

/-- The comment in the code says that the removal of the stamp "can only succeed for one process".
This is not so: a process that has read the old time stamp may remove the stamp which another
process has just recreated.  Two processes sweep at the same time. -/
theorem C58_two_sweeps (m now : Int) (h : interval ≤ now - m) :
    ∃ s, SSteps ⟨some m, now, fun _ => .start, []⟩ s ∧ s.sweeps = [now, now] := by
  have hm : ∀ x, some m = some x → ¬ (x ≤ now ∧ now - x < interval) := by
    intro x hx; injection hx with hx; subst hx; omega
  have s1 := SSteps.step (SSteps.refl ⟨some m, now, fun _ => .start, []⟩) (SStep.test _ 0 rfl hm)
  have s2 := s1.step (SStep.test _ 1 rfl hm)
  have s3 := s2.step (SStep.claim _ 0 rfl rfl)
  have s4 := s3.step (SStep.run _ 0 rfl)
  have s5 := s4.step (SStep.claim _ 1 rfl rfl)
  have s6 := s5.step (SStep.run _ 1 rfl)
  exact ⟨_, s6, rfl⟩

/-- Steps in which a process is not interrupted between testing, removing and recreating the stamp -/
inductive AStep : Sweeps → Sweeps → Prop
  | tick (s : Sweeps) (t : Int) : s.now ≤ t → AStep s { s with now := t }
  | sweep (s : Sweeps) (m : Int) : s.stamp = some m → ¬ (m ≤ s.now ∧ s.now - m < interval) →
      AStep s { s with stamp := some s.now, sweeps := s.now :: s.sweeps }

@[inherit_doc SSteps]
inductive ASteps : Sweeps → Sweeps → Prop
  | refl (s) : ASteps s s
  | step {s t u} : ASteps s t → AStep t u → ASteps s u

/-- **C58 (partial).**  If processes are not interrupted while claiming a sweep, then sweeps are at
least one hour apart (the clock does not run backwards).  What is missing: interleavings, see
`C58_two_sweeps`. -/
theorem C58_hourly_partial {s t : Sweeps} (h : ASteps s t) (h0 : s.sweeps = []) :
    t.sweeps.Pairwise (fun later earlier => earlier + interval ≤ later) := by
  have key : t.sweeps.Pairwise (fun later earlier => earlier + interval ≤ later) ∧
      (∀ x ∈ t.sweeps, x ≤ t.now) ∧ (∀ x ∈ t.sweeps, ∀ m, t.stamp = some m → x ≤ m) ∧
      (t.sweeps ≠ [] → ∀ m, t.stamp = some m → m ≤ t.now) := by
    induction h with
    | refl => rw [h0]; simp
    | step _ hs ih =>
      obtain ⟨i1, i2, i3, i4⟩ := ih
      cases hs with
      | tick t' ht =>
        exact ⟨i1, fun x hx => by have := i2 x hx; dsimp only at *; omega, i3, fun hne m hm => by
          have := i4 hne m hm; dsimp only at *; omega⟩
      | sweep m hm hne =>
        refine ⟨?_, ?_, ?_, ?_⟩
        · dsimp only
          rw [List.pairwise_cons]
          refine ⟨?_, i1⟩
          intro x hx
          have h1 := i3 x hx m hm
          have h2 := i4 (by rintro hc; rw [hc] at hx; simp at hx) m hm
          unfold interval at *; omega
        · intro x hx
          rcases List.mem_cons.1 hx with rfl | hx
          · exact Int.le_refl _
          · exact i2 x hx
        · intro x hx m' hm'
          injection hm' with hm'
          subst hm'
          rcases List.mem_cons.1 hx with rfl | hx
          · exact Int.le_refl _
          · exact i2 x hx
        · intro _ m' hm'
          injection hm' with hm'
          subst hm'
          exact Int.le_refl _
  exact key.1

example : ∃ t, ASteps ⟨some 0, 8000, fun _ => .start, []⟩ t ∧ t.sweeps = [12000, 8000] := by
  have s1 := ASteps.step (ASteps.refl ⟨some 0, 8000, fun _ => .start, []⟩) (AStep.sweep _ 0 rfl (by decide))
  have s2 := s1.step (AStep.tick _ 12000 (by decide))
  have s3 := s2.step (AStep.sweep _ 8000 rfl (by decide))
  exact ⟨_, s3, rfl⟩

end Verif.Cache
