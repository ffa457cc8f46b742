import Verif.CudaScatter.Inc
import Verif.CudaScatter.MinMax

/-!
# C89: scatter-reductions, increments and exchanges on CUDA devices
-/
namespace Verif.CudaScatter
open Verif.Ieee (decode)
variable {V : Type}

/-! ### Examples -/

/-- A group in which lanes 0..9 are active, with elements 5, 7, 5, 7, ... of an array at address 64 -/
def exGroup : Group Nat := ⟨fun l => decide (l < 10), fun l => 64 + (if l % 2 = 0 then 5 else 7) * 4, fun l i => l * 10 + i⟩
/-- A coherent warp -/
def exFull : Group Nat := ⟨fun _ => true, fun _ => 64 + 5 * 4, fun l i => l * 10 + i⟩

theorem exGroup_inArray : exGroup.InArray 2 := by
  refine ⟨64, fun l _ _ => ?_⟩
  by_cases h : l % 2 = 0
  · exact ⟨5, by decide, by simp [exGroup, h]⟩
  · exact ⟨7, by decide, by simp [exGroup, h]⟩

theorem exFull_inArray : exFull.InArray 2 := ⟨64, fun _ _ _ => ⟨5, by decide, rfl⟩⟩

/-! ### Scatter-reductions -/

/-- All lanes of a group take the same branch: if one lane finds that the warp is coherent, then all lanes of the warp are in the group
and find the same. -/
theorem C89_uniform (g : Group V) (shift l : Nat) (hl : l < 32) (ha : g.active l = true) (hf : g.full shift l = true) :
    ∀ j < 32, g.active j = true ∧ g.full shift j = true := by
  obtain ⟨-, hall, -⟩ := full_rank ha hf hl
  intro j hj
  refine ⟨(hall j hj).1, ?_⟩
  unfold Group.full
  rw [List.all_eq_true]
  intro x hx
  have := hall x (List.mem_range.1 hx)
  simp [Group.peers, this, (hall j hj).2]

example : exFull.active 3 = true ∧ exFull.full 2 3 = true := by decide
example : exGroup.full 2 3 = false := by decide

/-- For any operation (no associativity or commutativity, e.g. rounded addition): whatever the groups and the order of
atomic operations are, each element of memory is combined with operands `rs`, in some order, and each of these combines values that lanes provide
for this element, in the order of lanes.  Each value occurs exactly once; masked lanes contribute nothing. -/
theorem C89_reduce_any (op : V → V → V) (n shift : Nat) (gs : List (Group V)) (hA : ∀ g ∈ gs, g.InArray shift) (m m' : Nat → V)
    (h : ReduceExec op n shift gs m m') (a : Nat) :
    ∃ (cs : List (List V × V)) (rs : List V), (∀ c ∈ cs, Bracketed op c.1 c.2) ∧
      (cs.flatMap fun c => c.1).Perm (contributions n (2 ^ shift) gs a) ∧ rs.Perm (cs.map fun c => c.2) ∧ m' a = rs.foldl op (m a) := by
  obtain ⟨ops, ws, hf, hp, rfl⟩ := h
  obtain ⟨ch, e, hb, hperm⟩ := all_chunks hf hA
  refine ⟨(ch.filter fun c => c.1 = a).map fun c => c.2, (ws.filter fun w => w.1 = a).map fun w => w.2, ?_, ?_, ?_, foldl_red op a ws m⟩
  · intro c hc
    obtain ⟨c', hc', rfl⟩ := List.mem_map.1 hc
    exact hb c' (List.mem_filter.1 hc').1
  · rw [← chunks_filter, contributions_eq]
    exact (hperm.filter _).map _
  · have h1 := (hp.filter fun w => decide (w.1 = a)).map fun w => w.2
    rw [e, List.filter_map, List.map_map] at h1
    rw [List.map_map]
    exact h1

/-- If the operation is associative and commutative, then each element is combined with exactly the values that active lanes provide for it. -/
theorem C89_reduce (op : V → V → V) (hA : ∀ a b c, op (op a b) c = op a (op b c)) (hC : ∀ a b, op a b = op b a) (n shift : Nat)
    (gs : List (Group V)) (hIn : ∀ g ∈ gs, g.InArray shift) (m m' : Nat → V) (h : ReduceExec op n shift gs m m') (a : Nat) :
    m' a = (contributions n (2 ^ shift) gs a).foldl op (m a) := by
  obtain ⟨cs, rs, hb, hp, hr, e⟩ := C89_reduce_any op n shift gs hIn m m' h a
  have : RightCommutative op := ⟨fun x y z => by rw [hA, hA, hC y z]⟩
  rw [e, hr.foldl_eq, bracketed_folds hA cs hb, hp.foldl_eq]

/-- The same holds if values are not combined within warps. -/
theorem C89_direct (op : V → V → V) (hA : ∀ a b c, op (op a b) c = op a (op b c)) (hC : ∀ a b, op a b = op b a) (n tsize : Nat)
    (gs : List (Group V)) (m m' : Nat → V) (h : DirectExec op n tsize gs m m') (a : Nat) :
    m' a = (contributions n tsize gs a).foldl op (m a) := by
  obtain ⟨ws, hp, rfl⟩ := h
  have : RightCommutative op := ⟨fun x y z => by rw [hA, hA, hC y z]⟩
  rw [foldl_red, contributions_eq]
  exact ((hp.filter _).map _).foldl_eq _

/-- The loop ends: there is an execution for any groups and any initial contents. -/
theorem C89_reduce_exists (op : V → V → V) (n shift : Nat) (gs : List (Group V)) (m : Nat → V) : ∃ m', ReduceExec op n shift gs m m' := by
  have h : ∃ ops, List.Forall₂ (fun (g : Group V) w => g.WarpReduce op n shift w) gs ops := by
    induction gs with
    | nil => exact ⟨[], .nil⟩
    | cons g gs ih =>
      obtain ⟨ops, ho⟩ := ih
      by_cases hf : ((List.range 32).any fun l => g.active l && g.full shift l) = true
      · exact ⟨_ :: ops, .cons (by unfold Group.WarpReduce; rw [if_pos hf]) ho⟩
      · obtain ⟨r, hr⟩ := loop_exists (g := g) (op := op) (shift := shift) 5 0 (g.start shift) (by omega) (inv_start g op shift)
        exact ⟨g.reds n (2 ^ shift) (fun l => g.rank shift l == 0) r.q :: ops, .cons (by unfold Group.WarpReduce; rw [if_neg hf]; exact ⟨r, hr, rfl⟩) ho⟩
  obtain ⟨ops, ho⟩ := h
  exact ⟨_, ops, ops.flatten, ho, .refl _, rfl⟩

/-- Two groups, of which one is coherent; lane 4 of the first contributes 40 to element 5. -/
example : (∀ g ∈ [exGroup, exFull], g.InArray 2) ∧ contributions 1 4 [exGroup] (64 + 20) = [0, 20, 40, 60, 80] ∧
    (contributions 1 4 [exGroup, exFull] (64 + 20)).length = 37 := by
  refine ⟨?_, by decide, by decide⟩
  intro g hg
  rcases List.mem_cons.1 hg with rfl | hg
  · exact exGroup_inArray
  · rw [List.mem_singleton] at hg; subst hg; exact exFull_inArray
example : ∃ m', ReduceExec (· + ·) 1 2 [exGroup, exFull] (fun _ => 0) m' := C89_reduce_exists _ _ _ _ _
/-- Packets of three values: the second value of lanes with element 5 is combined with element 6. -/
example : contributions 3 4 [exGroup] (64 + 24) = [1, 21, 41, 61, 81] := by decide

/-- The assumption on the size of arrays is needed: indices that differ by 2^32 are not distinguished, and values of different elements
are combined.  (Indices of scatters are 32-bit integers, so that this cannot happen for arrays.) -/
theorem C89_index_counterexample : ∃ (g : Group Nat) (m' : Nat → Nat), ReduceExec (· + ·) 1 2 [g] (fun _ => 0) m' ∧
    contributions 1 4 [g] (2 ^ 34) = [1] ∧ m' (2 ^ 34) = 0 := by
  refine ⟨⟨fun l => decide (l < 2), fun l => l * 2 ^ 34, fun _ _ => 1⟩, ?_⟩
  generalize hg : (⟨fun l => decide (l < 2), fun l => l * 2 ^ 34, fun _ _ => 1⟩ : Group Nat) = g
  obtain ⟨r, hr⟩ := loop_exists (g := g) (op := (· + ·)) (shift := 2) 5 0 (g.start 2) (by omega) (inv_start g _ 2)
  have hf : ((List.range 32).any fun l => g.active l && g.full 2 l) = false := by subst hg; decide
  refine ⟨_, ⟨[_], _, .cons (by unfold Group.WarpReduce; rw [if_neg (by rw [hf]; simp)]; exact ⟨r, hr, rfl⟩) .nil, .refl _, rfl⟩, by subst hg; decide, ?_⟩
  rw [foldl_red]
  have hl : (List.range 32).filter (fun l => g.active l && (fun l => g.rank 2 l == 0) l) = [0] := by subst hg; decide
  have ha : g.addr 0 = 0 := by subst hg; rfl
  unfold Group.reds
  rw [hl]
  simp [ha]

/-! ### Increments -/

/-- Increments: whatever the groups and the order of atomic operations are, each counter is increased by the number of lanes that
use it, and these lanes obtain the numbers from the old value on, each of them once. -/
theorem C89_inc (gs : List (Group Unit)) (hA : ∀ g ∈ gs, g.InArray 2) (m m' : Nat → BitVec 32) (out : Nat → Nat → BitVec 32)
    (h : IncExec gs m m' out) (a : Nat) :
    m' a = m a + BitVec.ofNat 32 (lanesAt gs a).length ∧
    ((lanesAt gs a).map fun p => out p.1 p.2).Perm ((List.range (lanesAt gs a).length).map fun r => m a + BitVec.ofNat 32 r) :=
  inc_spec hA h a

/-- There is an execution. -/
theorem C89_inc_exists (gs : List (Group Unit)) (m : Nat → BitVec 32) : ∃ m' out, IncExec gs m m' out := inc_exists gs m

/-- Groups with two counters -/
def exInc : Group Unit := ⟨fun l => decide (l < 10), fun l => 64 + (if l % 2 = 0 then 5 else 7) * 4, fun _ _ => ()⟩

example : exInc.InArray 2 ∧ lanesAt [exInc, exInc] (64 + 20) = [(0, 0), (0, 2), (0, 4), (0, 6), (0, 8), (1, 0), (1, 2), (1, 4), (1, 6), (1, 8)] := by
  refine ⟨⟨64, fun l _ _ => ?_⟩, by decide⟩
  by_cases h : l % 2 = 0
  · exact ⟨5, by decide, by simp [exInc, h]⟩
  · exact ⟨7, by decide, by simp [exInc, h]⟩

/-! ### Minima and maxima of floating point numbers -/

/-- The emulation of an atomic minimum: the result is one of both operands and none of them is less.  (`eb`, `mb`: number of bits of the exponent
and of the fraction; the theorem also holds for NaNs, of which nothing is less.) -/
theorem C89_min (eb mb : Nat) (he : 0 < eb) (mem v : BitVec (mb + eb + 1)) :
    (minmax true mem v = mem ∨ minmax true mem v = v) ∧
    ¬ (decode eb mb mem.toNat).lt (decode eb mb (minmax true mem v).toNat) ∧
    ¬ (decode eb mb v.toNat).lt (decode eb mb (minmax true mem v).toNat) := by
  rw [minmax_min]
  by_cases h : pos v < pos mem
  · rw [if_pos h]
    exact ⟨.inr rfl, fun hc => by have := pos_lt he hc; omega, fun hc => by have := pos_lt he hc; omega⟩
  · rw [if_neg h]
    exact ⟨.inl rfl, fun hc => by have := pos_lt he hc; omega, fun hc => by have := pos_lt he hc; omega⟩

/-- The emulation of an atomic maximum -/
theorem C89_max (eb mb : Nat) (he : 0 < eb) (mem v : BitVec (mb + eb + 1)) :
    (minmax false mem v = mem ∨ minmax false mem v = v) ∧
    ¬ (decode eb mb (minmax false mem v).toNat).lt (decode eb mb mem.toNat) ∧
    ¬ (decode eb mb (minmax false mem v).toNat).lt (decode eb mb v.toNat) := by
  rw [minmax_max]
  by_cases h : pos mem < pos v
  · rw [if_pos h]
    exact ⟨.inr rfl, fun hc => by have := pos_lt he hc; omega, fun hc => by have := pos_lt he hc; omega⟩
  · rw [if_neg h]
    exact ⟨.inl rfl, fun hc => by have := pos_lt he hc; omega, fun hc => by have := pos_lt he hc; omega⟩

/-- Both emulations are associative and commutative, so that `C89_reduce` applies to them: the order of atomic operations is irrelevant,
also for zeros of different signs. -/
theorem C89_minmax_laws (eb mb : Nat) (isMin : Bool) (a b c : BitVec (mb + eb + 1)) :
    minmax isMin (minmax isMin a b) c = minmax isMin a (minmax isMin b c) ∧ minmax isMin a b = minmax isMin b a := by
  cases isMin
  · refine ⟨?_, ?_⟩
    · rw [minmax_max a b, minmax_max b c, minmax_max, minmax_max]
      by_cases h1 : pos a < pos b <;> by_cases h2 : pos b < pos c <;> simp only [h1, h2, if_true, if_false]
      · rw [if_pos (by omega)]
      · rw [if_neg (by omega)]
    · rw [minmax_max, minmax_max]
      by_cases h1 : pos a < pos b
      · rw [if_pos h1, if_neg (by omega)]
      · rw [if_neg h1]
        by_cases h2 : pos b < pos a
        · rw [if_pos h2]
        · rw [if_neg h2]; exact pos_inj (by omega)
  · refine ⟨?_, ?_⟩
    · rw [minmax_min a b, minmax_min b c, minmax_min, minmax_min]
      by_cases h1 : pos b < pos a <;> by_cases h2 : pos c < pos b <;> simp only [h1, h2, if_true, if_false]
      · rw [if_pos (by omega)]
      · rw [if_neg (by omega)]
    · rw [minmax_min, minmax_min]
      by_cases h1 : pos b < pos a
      · rw [if_pos h1, if_neg (by omega)]
      · rw [if_neg h1]
        by_cases h2 : pos a < pos b
        · rw [if_pos h2]
        · rw [if_neg h2]; exact pos_inj (by omega)

/-- min(1, -2) = -2, max(1, -2) = 1, max(-2, -1) = -1 -/
example : minmax true (0x3f800000#32) 0xc0000000#32 = 0xc0000000#32 ∧ minmax false (0x3f800000#32) 0xc0000000#32 = 0x3f800000#32 ∧
    minmax false (0xc0000000#32) 0xbf800000#32 = 0xbf800000#32 := by decide

/-- The effect of NaNs depends on their sign: the maximum with a positive NaN is NaN, a negative one is ignored; for minima it is the other
way around.  (Instructions that combine the values of a warp ignore NaNs, so that the result also depends on which lanes form groups.) -/
theorem C89_nan_counterexample :
    decode 8 23 (0x7fc00000#32).toNat = .nan ∧ decode 8 23 (0xffc00000#32).toNat = .nan ∧
    minmax false (0x3f800000#32) 0x7fc00000#32 = 0x7fc00000#32 ∧ minmax false (0x3f800000#32) 0xffc00000#32 = 0x3f800000#32 ∧
    minmax true (0x3f800000#32) 0x7fc00000#32 = 0x3f800000#32 ∧ minmax true (0x3f800000#32) 0xffc00000#32 = 0xffc00000#32 := by
  refine ⟨?_, ?_, by decide, by decide, by decide, by decide⟩
  · rw [Verif.Ieee.nan_iff]; decide
  · rw [Verif.Ieee.nan_iff]; decide

/-! ### Half precision numbers -/

/-- The element that shares a 32-bit word with the one at address `a` -/
def neighbour (a : Nat) : Nat := if a / 2 % 2 = 0 then a + 2 else a - 2

/-- Addition of a half precision number: the value is added to the element, zero is added to its neighbour, nothing else changes. -/
theorem C89_half (add : V → V → V) (zero : V) (m : Nat → V) (a : Nat) (ha : a % 2 = 0) (v : V) :
    halfAdd add zero m a v a = add (m a) v ∧ halfAdd add zero m a v (neighbour a) = add (m (neighbour a)) zero ∧
    ∀ b, b ≠ a → b ≠ neighbour a → halfAdd add zero m a v b = m b := by
  unfold halfAdd neighbour
  by_cases h : a / 2 % 2 = 0
  · have e : a - a % 4 + a % 2 = a := by omega
    simp only [h, if_true, e]
    refine ⟨?_, ?_, ?_⟩
    · rw [Function.update_of_ne (by omega), Function.update_self]
    · rw [Function.update_self]
    · intro b h1 h2
      rw [Function.update_of_ne h2, Function.update_of_ne h1]
  · have e : a - a % 4 + a % 2 = a - 2 := by omega
    have e2 : a - 2 + 2 = a := by omega
    simp only [h, if_false, e, e2]
    refine ⟨?_, ?_, ?_⟩
    · rw [Function.update_self]
    · rw [Function.update_of_ne (by omega), Function.update_self]
    · intro b h1 h2
      rw [Function.update_of_ne h1, Function.update_of_ne h2]

/-- If adding zero changes no number, then this is an atomic addition to one element. -/
theorem C89_half_exact (add : V → V → V) (zero : V) (hz : ∀ x, add x zero = x) (m : Nat → V) (a : Nat) (ha : a % 2 = 0) (v : V) :
    halfAdd add zero m a v = red add m (a, v) := by
  obtain ⟨h1, h2, h3⟩ := C89_half add zero m a ha v
  funext b
  unfold red
  by_cases hb : b = a
  · subst hb; rw [h1, Function.update_self]
  · rw [Function.update_of_ne hb]
    by_cases hn : b = neighbour a
    · rw [hn, h2, hz]
    · exact h3 b hb hn

example : (64 : Nat) % 2 = 0 ∧ neighbour 64 = 66 ∧ neighbour 66 = 64 := by decide

/-- But adding +0 to -0 yields +0: elements to which nothing is scattered can change their sign. -/
theorem C89_half_zero_counterexample (add : BitVec 16 → BitVec 16 → BitVec 16) (h : add 0x8000#16 0#16 = 0#16) (v : BitVec 16) :
    halfAdd add 0#16 (fun _ => 0x8000#16) 64 v 66 = 0#16 :=
  ((C89_half add 0#16 (fun _ => 0x8000#16) 64 (by decide) v).2.1).trans h

/-- Scattering to the last element of an array of odd length accesses the two bytes behind it. -/
theorem C89_half_beyond_counterexample : ∃ (base size a : Nat), base % 4 = 0 ∧ a = base + (size - 1) * 2 ∧ 0 < size ∧
    base + size * 2 ≤ neighbour a := ⟨64, 3, 68, by decide, by decide, by decide, by decide⟩

/-! ### Exchange and compare-exchange -/

/-- Exchange: an active lane stores its value and obtains the previous one; others change nothing and obtain zero. -/
theorem C89_exch {w : Nat} (m : Nat → BitVec w) (a : Nat) (v : BitVec w) :
    (exch m a true v).2 = m a ∧ (∀ b, (exch m a true v).1 b = if b = a then v else m b) ∧ exch m a false v = (m, 0) := by
  refine ⟨rfl, fun b => ?_, rfl⟩
  unfold exch
  rw [if_pos rfl]
  by_cases h : b = a
  · subst h; simp
  · simp [h]

/-- Compare-exchange of active lanes: the new value is stored if and only if the previous one is equal, and success says so. -/
theorem C89_cas_partial {w : Nat} (m : Nat → BitVec w) (a : Nat) (compare v : BitVec w) :
    (cas m a true compare v).2.1 = m a ∧ ((cas m a true compare v).2.2 = true ↔ m a = compare) ∧
    ∀ b, (cas m a true compare v).1 b = if b = a ∧ (cas m a true compare v).2.2 = true then v else m b := by
  have hs : (cas m a true compare v).2.2 = true ↔ m a = compare := by
    unfold cas; simp
  refine ⟨rfl, hs, fun b => ?_⟩
  simp only [hs]
  unfold cas
  simp only [if_true]
  by_cases h : m a = compare
  · rw [if_pos h]
    by_cases hb : b = a
    · subst hb; rw [if_pos ⟨rfl, h⟩, Function.update_self]
    · rw [if_neg (fun hc => hb hc.1), Function.update_of_ne hb]
  · rw [if_neg h, if_neg (fun hc => h hc.2)]

example : (cas (fun _ => 5#32) 64 true 5#32 7#32).2.2 = true ∧ (cas (fun _ => 5#32) 64 true 6#32 7#32).2.2 = false := by decide

/-- Masked lanes: nothing is stored. -/
theorem C89_cas_masked {w : Nat} (m : Nat → BitVec w) (a : Nat) (compare v : BitVec w) :
    (cas m a false compare v).1 = m ∧ (cas m a false compare v).2.1 = 0 := ⟨rfl, rfl⟩

/-- But such a lane reports success if it compares with zero, even if memory contains something else and remains unchanged.  ("success ... is only set to
true for indices where the new value was written", `jit.h:1170-1173`.) -/
theorem C89_cas_mask_counterexample : (cas (fun _ => 5#32) 64 false 0#32 7#32).2.2 = true ∧
    (cas (fun _ => 5#32) 64 false 0#32 7#32).1 = fun _ => 5#32 := ⟨by decide, rfl⟩

end Verif.CudaScatter
