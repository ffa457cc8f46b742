import Verif.Freeze.Main

/-!
# C62: a replayed recording computes what the function computes

`tr` is the trace of the call that was recorded, `tr'` the trace of a later call with
other arguments.  Both consist of the same calls on the same arrays, and may differ in sizes as
described by `Similar` (Spec).  If the later call were executed directly, then it would
lead to the memory `mEnd'`.
-/

namespace Verif.Freeze

/-- **C62.** A recorded function that is replayed with other arguments returns what the
direct execution of the function returns, and changes its arguments in the same way.

The recording is accepted, the replay neither raises an exception nor rejects the inputs nor
aborts nor accesses invalid memory, all outputs have the contents (type, size and bytes) of
the arrays of the direct execution, and so have all inputs that still exist at the end.
This holds for all kernels and for all functions that the other backend calls compute.

Partial: `Whole` and `Similar` exclude several kinds of functions, and the replay is indeed
wrong for some of these (see the counterexamples in `Verif.Freeze.Wrong`). -/
theorem C62_replay_partial {sem : Sem} {addr : Nat → Nat} {ext : List Nat}
    {ins ins' : List Arr} {tr tr' : List Cmd} {outs outs' : List Arr}
    {m mEnd m' mEnd' : Mem} {vs : List InVar} {heap : Nat → Option (List (Cell Nat))} {next : Nat}
    -- the call that is recorded
    (hplaced : Placed addr (ins.map (·.arr) ++ ext) tr)
    (hrec : run sem m tr = some mEnd) (hrecw : Along sem Whole m tr)
    -- the later call
    (hrun : run sem m' tr' = some mEnd') (hrunw : Along sem Whole m' tr')
    (hout : ∀ o ∈ outs', Has mEnd' o.arr o.vt o.size)
    (hpass : ∀ o ∈ outs', ∀ i ∈ ins', o.arr = i.arr → o = i)
    -- both are calls of the same function
    (hsim : List.Forall₂ Similar tr tr')
    (hins : List.Forall₂ (fun i i' => i.arr = i'.arr ∧ i.vt = i'.vt) ins ins')
    (houts : List.Forall₂ (fun o o' => o.arr = o'.arr ∧ o.vt = o'.vt) outs outs')
    -- the variables that are passed to the replay
    (hin : Inputs m' ins') (hprov : Provides m' ins' vs heap next) :
    ∃ rc os st, record addr ext ins tr outs = some rc ∧
      replay sem rc vs heap next = .ok (os, st) ∧
      os.map (view st vs) = outs'.map (seen mEnd') ∧
      ∀ (k : Nat) i v, ins'[k]? = some i → vs[k]? = some v → (mEnd'.buf i.arr).isSome →
        viewVar st v.vt v.data v.size = seen mEnd' i :=
  replay_sim hplaced hrec hrecw hrun hrunw hsim hins houts hin hprov hout hpass

/-! ## Arguments of the same size -/

theorem mem_le_largest {l : List Nat} {x : Nat} (h : x ∈ l) : x ≤ largest l := by
  induction l with
  | nil => cases h
  | cons y ys ih =>
    show x ≤ max y (largest ys)
    rcases List.mem_cons.1 h with rfl | h
    · exact Nat.le_max_left ..
    · exact Nat.le_trans (ih h) (Nat.le_max_right ..)

theorem largest_mem {l : List Nat} (h : l ≠ []) : largest l ∈ l := by
  induction l with
  | nil => exact absurd rfl h
  | cons y ys ih =>
    show max y (largest ys) ∈ _
    by_cases e : ys = []
    · subst e
      simp [largest]
    · rcases Nat.le_total y (largest ys) with hy | hy
      · rw [Nat.max_eq_right hy]
        exact List.mem_cons_of_mem _ (ih e)
      · rw [Nat.max_eq_left hy]
        exact List.mem_cons_self ..

theorem largest_le {l : List Nat} {b : Nat} (h : ∀ x ∈ l, x ≤ b) : largest l ≤ b := by
  by_cases e : l = []
  · subst e
    exact Nat.zero_le _
  · exact h _ (largest_mem e)

theorem zip_self_mem {β : Type} {l : List β} {q : β × β} (h : q ∈ l.zip l) : q.1 = q.2 ∧ q.1 ∈ l := by
  induction l with
  | nil => cases h
  | cons x xs ih =>
    rcases List.mem_cons.1 h with rfl | h
    · exact ⟨rfl, List.mem_cons_self ..⟩
    · exact ⟨(ih h).1, List.mem_cons_of_mem _ (ih h).2⟩

theorem mem_zip_self {β : Type} {l : List β} {x : β} (h : x ∈ l) : (x, x) ∈ l.zip l := by
  induction l with
  | nil => cases h
  | cons y ys ih =>
    rcases List.mem_cons.1 h with rfl | h
    · exact List.mem_cons_self ..
    · exact List.mem_cons_of_mem _ (ih h)

theorem newBasis_self (n : Nat) (ps : List Param) : newBasis n ps ps = basis n ps := by
  unfold newBasis
  by_cases hd : directSizes ps = []
  · rw [if_pos hd]
    apply Nat.le_antisymm
    · apply largest_le
      intro x hx
      obtain ⟨q, hq, rfl⟩ := List.mem_map.1 hx
      obtain ⟨hq1, hq2⟩ := List.mem_filter.1 hq
      simp only [decide_eq_true_eq] at hq2
      rw [← (zip_self_mem hq1).1, hq2.2]
      exact Nat.le_refl _
    · by_cases hp : pointerSizes n ps = []
      · unfold basis
        rw [if_pos hd, hp]
        exact Nat.zero_le _
      · have hb : basis n ps = largest (pointerSizes n ps) := by
          unfold basis
          rw [if_pos hd]
        have := largest_mem hp
        rw [← hb] at this
        obtain ⟨p, hp1, hp2⟩ := List.mem_map.1 this
        obtain ⟨hp1, hp3⟩ := List.mem_filter.1 hp1
        simp only [decide_eq_true_eq] at hp3
        apply mem_le_largest
        rw [List.mem_map]
        refine ⟨(p, p), List.mem_filter.2 ⟨mem_zip_self hp1, ?_⟩, hp2⟩
        simp only [decide_eq_true_eq]
        exact ⟨hp3.1, hp2⟩
  · rw [if_neg hd]
    unfold basis
    rw [if_neg hd]

theorem scales_self (n b : Nat) : Scales n b n b := by
  unfold Scales
  by_cases h0 : b = 0
  · exact Or.inr ⟨Or.inl h0, rfl⟩
  · by_cases h : b ∣ n ∨ n ∣ b
    · exact Or.inl ⟨h0, h, rfl⟩
    · exact Or.inr ⟨Or.inr ⟨fun e => h (Or.inl e), fun e => h (Or.inr e)⟩, rfl⟩

theorem sameBlocks_self (s b : Nat) : SameBlocks s b s b := by
  by_cases h : b = s
  · exact Or.inl ⟨h, h⟩
  · exact Or.inr ⟨h, rfl⟩

theorem similar_self {sem : Sem} {m : Mem} {c : Cmd} (h : Whole m c) : Similar c c := by
  cases c with
  | launch k n ps =>
    refine .launch ?_ ?_
    · exact List.forall₂_same.2 fun _ _ => ⟨rfl, rfl, rfl, rfl⟩
    · rw [newBasis_self]
      exact scales_self ..
  | memset x size isize v => exact .memset
  | memcpy dst src b => exact .memcpy
  | memcpySync dst src b => exact False.elim h
  | compress src s out => exact .compress
  | mkperm src s bs buckets perm offs => exact .mkperm
  | blockReduce vt rop s bs src out => exact .blockReduce (sameBlocks_self ..)
  | prefixReduce vt rop s bs ex rev src out => exact .prefixReduce (sameBlocks_self ..)
  | reduceBool rop s src out => exact .reduceBool
  | dot vt x y s out => exact .dot
  | gemm vt flags M N K grid batch A B C => exact .gemm
  | aggregate dst total es => exact .aggregate
  | opaqueWidth src vt s out => exact .opaqueWidth
  | undef x vt s => exact .undef
  | barrier => exact .barrier
  | free x => exact .free

theorem similar_all {sem : Sem} {tr : List Cmd} {m m2 : Mem} (hr : run sem m tr = some m2)
    (h : Along sem Whole m tr) : List.Forall₂ Similar tr tr := by
  induction tr generalizing m with
  | nil => exact .nil
  | cons c cs ih =>
    rw [run, Option.bind_eq_some_iff] at hr
    obtain ⟨m1, h1, h2⟩ := hr
    exact .cons (similar_self (sem := sem) h.1) (ih h2 (h.2 m1 h1))

/-- **C62, arguments of the same sizes.** In this case there is no condition on the way in
which sizes are determined: whatever the new contents of the arguments are, if the function
performs the same calls then the replay returns the same results as a direct execution. -/
theorem C62_same_sizes_partial {sem : Sem} {addr : Nat → Nat} {ext : List Nat}
    {ins : List Arr} {tr : List Cmd} {outs : List Arr}
    {m mEnd m' mEnd' : Mem} {vs : List InVar} {heap : Nat → Option (List (Cell Nat))} {next : Nat}
    (hplaced : Placed addr (ins.map (·.arr) ++ ext) tr)
    (hrec : run sem m tr = some mEnd) (hrecw : Along sem Whole m tr)
    (hrun : run sem m' tr = some mEnd') (hrunw : Along sem Whole m' tr)
    (hout : ∀ o ∈ outs, Has mEnd' o.arr o.vt o.size)
    (hpass : ∀ o ∈ outs, ∀ i ∈ ins, o.arr = i.arr → o = i)
    (hin : Inputs m' ins) (hprov : Provides m' ins vs heap next) :
    ∃ rc os st, record addr ext ins tr outs = some rc ∧
      replay sem rc vs heap next = .ok (os, st) ∧
      os.map (view st vs) = outs.map (seen mEnd') ∧
      ∀ (k : Nat) i v, ins[k]? = some i → vs[k]? = some v → (mEnd'.buf i.arr).isSome →
        viewVar st v.vt v.data v.size = seen mEnd' i :=
  C62_replay_partial hplaced hrec hrecw hrun hrunw hout hpass (similar_all hrec hrecw)
    (List.forall₂_same.2 fun _ _ => ⟨rfl, rfl⟩) (List.forall₂_same.2 fun _ _ => ⟨rfl, rfl⟩)
    hin hprov

/-! ## A concrete case

The function maps `x` to an array of the same size by a kernel, sums up the result, and
launches a second kernel that reads the mapped array directly and the sum through a pointer.
It is recorded with 2 elements and replayed with 4.  It returns the result of the second
kernel, its argument, and the sum. -/

def exSem : Sem where
  kernel := fun k _ _ cs => match k with
    | 0 => [none, some ((cs.getD 0 []).reverse)]
    | 1 => [none, none, some (((cs.getD 0 []).zip (cs.getD 1 [])).map (·.2) ++ cs.getD 0 [])]
    | _ => []
  prim := fun _ ins => ins.flatten
  count := fun l => (l.filter fun b => decide (b ≠ some 0)).length

def exTrace (n : Nat) : List Cmd :=
  [.launch 0 n [{ kind := .direct, arr := 0, vt := 8, size := n },
      { kind := .output, arr := 1, vt := 8 }],
   .blockReduce 8 0 n n 1 2,
   .launch 1 n [{ kind := .direct, arr := 1, vt := 8, size := n },
      { kind := .pointer, arr := 2, vt := 8, size := 1 }, { kind := .output, arr := 3, vt := 8 }],
   .free 1]

def exIns (n : Nat) : List Arr := [⟨0, 8, n⟩]
def exOuts (n : Nat) : List Arr := [⟨3, 8, n⟩, ⟨0, 8, n⟩, ⟨2, 8, 1⟩]

def exCells (n : Nat) : List (Cell Nat) := (List.range (n * 4)).map .byte

def exMem (n : Nat) : Mem where
  buf := fun x => if x = 0 then some { cells := exCells n, len := n * 4, vt := some 8 } else none
  dead := fun _ => false

theorem along_cons {sem : Sem} {P : Mem → Cmd → Prop} {m m1 : Mem} {c : Cmd} {cs : List Cmd}
    (h : P m c) (he : exec sem m c = some m1) (ht : Along sem P m1 cs) :
    Along sem P m (c :: cs) :=
  ⟨h, fun m2 h2 => by
    rw [he] at h2
    cases h2
    exact ht⟩

example : Placed (fun x => x + 100) ((exIns 2).map (·.arr) ++ []) (exTrace 2) := by
  refine ⟨?_, by decide, ?_, by decide, ?_, by decide, ?_, by decide, ?_⟩ <;>
    (intro x _ y _ h; exact Nat.add_right_cancel h)

theorem exWhole (n : Nat) (h : n = 2 ∨ n = 4) : Along exSem Whole (exMem n) (exTrace n) := by
  rcases h with rfl | rfl
  all_goals
    refine along_cons ⟨by decide, by decide, ?_, ?_⟩ rfl (along_cons ⟨⟨_, rfl, ?_⟩, by decide,
      by decide, by decide, Or.inl rfl⟩ rfl (along_cons ⟨by decide, by decide, ?_, ?_⟩ rfl
        (along_cons trivial rfl trivial)))
    · intro p hp hk
      simp only [List.mem_cons, List.not_mem_nil, or_false] at hp
      rcases hp with rfl | rfl
      · exact ⟨_, rfl, by decide, by decide, by decide, by decide, by decide⟩
      · exact absurd rfl hk
    · decide
    · decide
    · intro p hp hk
      simp only [List.mem_cons, List.not_mem_nil, or_false] at hp
      rcases hp with rfl | rfl | rfl
      · exact ⟨_, rfl, by decide, by decide, by decide, by decide, by decide⟩
      · exact ⟨_, rfl, by decide, by decide, by decide, by decide, by decide⟩
      · exact absurd rfl hk
    · decide

example : List.Forall₂ Similar (exTrace 2) (exTrace 4) := by
  refine .cons (.launch ?_ ?_) (.cons (.blockReduce (Or.inl ⟨rfl, rfl⟩))
    (.cons (.launch ?_ ?_) (.cons .free .nil)))
  · exact .cons ⟨rfl, rfl, rfl, rfl⟩ (.cons ⟨rfl, rfl, rfl, rfl⟩ .nil)
  · exact Or.inl (by decide)
  · exact .cons ⟨rfl, rfl, rfl, rfl⟩ (.cons ⟨rfl, rfl, rfl, rfl⟩ (.cons ⟨rfl, rfl, rfl, rfl⟩ .nil))
  · exact Or.inl (by decide)

example : Inputs (exMem 4) (exIns 4) := by
  refine ⟨by decide, ?_, ?_⟩
  · intro x h
    by_cases e : x = 0
    · subst e
      decide
    · exact absurd h (by simp [exMem, e])
  · intro i hi
    simp only [exIns, List.mem_cons, List.not_mem_nil, or_false] at hi
    subst hi
    exact ⟨exCells 4, rfl, by decide, by decide, by decide, by decide, by decide, by decide⟩

example : Provides (exMem 4) (exIns 4) [⟨8, 4, 50⟩]
    (fun a => if a = 50 then some (exCells 4) else none) 60 :=
  ⟨by decide, .cons ⟨rfl, rfl, rfl, by decide⟩ .nil⟩

example : ∀ o ∈ exOuts 4, ∀ i ∈ exIns 4, o.arr = i.arr → o = i := by decide

example : ∃ m2, run exSem (exMem 4) (exTrace 4) = some m2 ∧
    ∀ o ∈ exOuts 4, Has m2 o.arr o.vt o.size := by
  refine ⟨_, rfl, ?_⟩
  intro o ho
  simp only [exOuts, List.mem_cons, List.not_mem_nil, or_false] at ho
  rcases ho with rfl | rfl | rfl
  all_goals exact ⟨_, rfl, by decide, by decide, by decide, by decide, by decide⟩

/-- What the direct execution of a trace shows. -/
def direct (sem : Sem) (m : Mem) (tr : List Cmd) (outs : List Arr) :
    Option (List (Option (Nat × List (Option Nat)))) :=
  (run sem m tr).map fun m2 => outs.map (seen m2)

/-- What the recording and the replay of a trace show. -/
inductive Outcome where
  | notRecorded | rejected | raised | aborted | undefined
  | values (l : List (Option (Nat × List (Option Nat))))
deriving DecidableEq

def outcome (sem : Sem) (addr : Nat → Nat) (ext : List Nat) (ins : List Arr) (tr : List Cmd)
    (outs : List Arr) (vs : List InVar) (heap : Nat → Option (List (Cell Nat))) (next : Nat) :
    Outcome :=
  match record addr ext ins tr outs with
  | none => .notRecorded
  | some rc =>
    match replay sem rc vs heap next with
    | .ok (os, st) => .values (os.map (view st vs))
    | .reject => .rejected
    | .raise _ => .raised
    | .abort => .aborted
    | .ub => .undefined

def exHeap (n : Nat) : Nat → Option (List (Cell Nat)) :=
  fun a => if a = 50 then some (exCells n) else none

example : direct exSem (exMem 4) (exTrace 4) (exOuts 4) = some
    [some (8, [some 15, some 14, some 13, some 12] ++ [15, 14, 13, 12, 11, 10, 9, 8, 7, 6, 5, 4].map some),
     some (8, (List.range 16).map some), some (8, [15, 14, 13, 12].map some)] := by decide

example : outcome exSem (fun x => x + 100) [] (exIns 2) (exTrace 2) (exOuts 2) [⟨8, 4, 50⟩]
    (exHeap 4) 60 = .values
    [some (8, [some 15, some 14, some 13, some 12] ++ [15, 14, 13, 12, 11, 10, 9, 8, 7, 6, 5, 4].map some),
     some (8, (List.range 16).map some), some (8, [15, 14, 13, 12].map some)] := by decide

end Verif.Freeze
