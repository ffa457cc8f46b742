import Verif.Packet.Kernel
import Verif.Llvm.Expanded

/-!
# Packet scatters equal separate scatters (C70)
-/
namespace Verif.Packet

open Verif.Par
open Verif.Atomic (Target gep)

variable {V : Type}

/-- All active lanes refer to groups of the array. -/
def GroupsExist (n w : Nat) (t : Target) (threads : List (List (Op V))) : Prop :=
  ∀ os ∈ threads, ∀ o ∈ os, ∀ l, l < w → o.mask l = true → o.index l < t.size / n

/-- Different threads do not refer to the same group. -/
def NoSharedGroups (w : Nat) (threads : List (List (Op V))) : Prop :=
  ∀ (a b : Nat) (os qs : List (Op V)), threads[a]? = some os → threads[b]? = some qs → a ≠ b →
    ∀ o ∈ os, ∀ q ∈ qs, ∀ l l', l < w → l' < w → o.mask l = true → q.mask l' = true → o.index l ≠ q.index l'

theorem laneVals_supplied {n w : Nat} {o : Op V} {ix : Nat → Nat} (h : ∀ l, l < w → o.mask l = true → ix l = n * o.index l) (j : Nat) :
    (List.range w).flatMap (laneVals n o.mask ix (fun l e => o.val e l) j) = supplied n w o j := by
  unfold supplied
  rw [List.filterMap_eq_flatMap_toList]
  refine List.flatMap_congr fun l hl => ?_
  have hl := List.mem_range.1 hl
  unfold laneVals rowVals
  by_cases hm : o.mask l = true
  · rw [if_pos hm, h l hl hm]
    by_cases hj : n * o.index l ≤ j ∧ j < n * o.index l + n
    · rw [if_pos hj, if_pos ⟨hm, hj⟩]; rfl
    · rw [if_neg hj, if_neg fun hc => hj hc.2]; rfl
  · rw [if_neg hm, if_neg fun hc => hm hc.1]; rfl

theorem flatMap_zipIdx {α β : Type} (f : α → List β) (l : List α) (a : Nat) : ((l.zipIdx a).flatMap fun x => f x.1) = l.flatMap f := by
  induction l generalizing a with
  | nil => rfl
  | cons x l ih => rw [List.zipIdx_cons, List.flatMap_cons, List.flatMap_cons, ih]

theorem start_eq {n w a : Nat} {t : Target} (ht : t.OK) (hn : 0 < n) (o : Op V) {l : Nat} (h : o.index l < t.size / n) :
    n * o.index l + n ≤ t.size ∧ start (fun _ i => i) n a o l = n * o.index l := by
  have h1 : n * o.index l + n ≤ t.size := by
    have h2 := (Nat.le_div_iff_mul_le hn).1 h
    rw [Nat.succ_mul, Nat.mul_comm] at h2
    exact h2
  refine ⟨h1, ?_⟩
  unfold start
  rw [Nat.mul_comm, Nat.mod_eq_of_lt]
  have := ht.size
  omega

/-- **C70.**  A packet scatter of the LLVM backend (replacing values, or adding to them) has the effect of separate operations for the elements:
`n` is the number of elements of a packet, `w` the number of lanes of a vector, and lane `l` refers to the entries `n * index l + i` of the array.
Any number of threads execute any sequences of operations, and their accesses are interleaved in any way.  Only entries of the array are accessed,
entry `j` finally results from its previous value and the values that active lanes supply for it, in the order of operations and lanes; nothing else changes.
This holds with and without debug mode, for all types (`op` need not be associative).
(Missing: the target has to be aligned like memory of the allocator, see `C70_unaligned_counterexample`, and `n` must divide its size, see
`C70_size_one_counterexample`.  Threads must not share groups.) -/
theorem C70_scatter_packet_partial {op : Option (V → V → V)} {debug : Bool} {t : Target} {w k n : Nat} (ht : t.OK) (hw : w = 2 ^ k) (hk : 1 ≤ k) (hs : t.shift ≤ 3)
    (hal : min 64 (w * 2 ^ t.shift) ∣ t.base) (hn : 0 < n) (hev : n % 2 = 0) {threads : List (List (Op V))}
    (hg : GroupsExist n w t threads) (hc : NoSharedGroups w threads) (m : Option Nat → V) :
    (scatterKernel op debug w n t (fun _ i => i) threads).Safe (fun _ l => ∃ e, e < t.size ∧ l = some (t.addr e)) m ∧
    ∀ m', (scatterKernel op debug w n t (fun _ i => i) threads).Ends m m' →
      (∀ j, m' (some (t.addr j)) = result op (m (some (t.addr j))) (threads.flatMap fun os => os.flatMap fun o => supplied n w o j)) ∧
      ∀ l, (∀ j, some (t.addr j) ≠ l) → m' l = m l := by
  have hst : ∀ (a : Nat) (os : List (Op V)), os ∈ threads → ∀ o ∈ os, ∀ l, l < w → o.mask l = true →
      n * o.index l + n ≤ t.size ∧ start (fun _ i => i) n a o l = n * o.index l :=
    fun a os hos o ho l hl hm => start_eq (w := w) ht hn o (hg os hos o ho l hl hm)
  have h := scatterKernel_spec (op := op) (debug := debug) (slot := fun _ i => i) (size' := t.size) (threads := threads) ht hw hk hs hal hn hev (by omega) ?_ ?_ m
  · refine ⟨h.1, fun m' he => ⟨fun j => ?_, (h.2 m' he).2⟩⟩
    rw [(h.2 m' he).1 j]
    congr 1
    unfold kernelVals
    rw [← flatMap_zipIdx (fun os => os.flatMap fun o => supplied n w o j) threads 0]
    refine List.flatMap_congr ?_
    rintro ⟨os, a⟩ hx
    obtain ⟨_, _, h3⟩ := List.mem_zipIdx hx
    unfold threadVals
    refine List.flatMap_congr fun o ho => laneVals_supplied (fun l hl hm => ?_) j
    exact (hst a os (by rw [h3]; exact List.getElem_mem _) o ho l hl hm).2
  · intro a os ha o ho l hl hm
    obtain ⟨h1, h2⟩ := hst a os (List.mem_of_getElem? ha) o ho l hl hm
    rw [h2]
    exact ⟨Nat.dvd_mul_right .., h1, fun _ => by omega⟩
  · rintro a b os qs j ha hb hne ⟨o, ho, l, hl, hm, h1, h2⟩ ⟨q, hq, l', hl', hm', h3, h4⟩
    rw [(hst a os (List.mem_of_getElem? ha) o ho l hl hm).2] at h1 h2
    rw [(hst b qs (List.mem_of_getElem? hb) q hq l' hl' hm').2] at h3 h4
    refine hc a b os qs ha hb hne o ho q hq l l' hl hl' hm hm' ?_
    have e : ∀ x, n * x ≤ j → j < n * x + n → j / n = x := fun x g1 g2 => Nat.div_eq_of_lt_le (by rw [Nat.mul_comm]; exact g1) (by rw [Nat.succ_mul, Nat.mul_comm]; exact g2)
    rw [← e _ h1 h2, ← e _ h3 h4]

/-- Two threads, packets of 6 numbers (three groups of two), vectors with 4 lanes; two lanes of the first thread add to the same packet. -/
example : ∃ (t : Target) (threads : List (List (Op (BitVec 32)))), t.OK ∧ t.shift ≤ 3 ∧ min 64 (4 * 2 ^ t.shift) ∣ t.base ∧
    GroupsExist 6 4 t threads ∧ NoSharedGroups 4 threads ∧
    (threads.flatMap fun os => os.flatMap fun o => supplied 6 4 o 9) = [30, 31] ∧ (threads.flatMap fun os => os.flatMap fun o => supplied 6 4 o 12) = [0] := by
  let p : Op (BitVec 32) := ⟨fun l => 1, fun i l => 10 * BitVec.ofNat 32 i + BitVec.ofNat 32 l, fun l => decide (l < 2)⟩
  let q : Op (BitVec 32) := ⟨fun l => 2 + l, fun i l => 0, fun l => decide (l = 0)⟩
  refine ⟨⟨4096, 2, 24⟩, [[p], [q]], ⟨by decide, by decide, by decide, by decide⟩, by decide, by decide, ?_, ?_, rfl, rfl⟩
  · intro os hos o ho l hl hm
    simp only [List.mem_cons, List.not_mem_nil, or_false] at hos
    rcases hos with rfl | rfl
    · rw [List.mem_singleton.1 ho]; exact (by decide : 1 < 24 / 6)
    · rw [List.mem_singleton.1 ho] at hm ⊢
      have : l = 0 := of_decide_eq_true hm
      subst this
      exact (by decide : 2 < 24 / 6)
  · intro a b os qs ha hb hne o ho o' ho' l l' hl hl' hm hm'
    have ha' := (List.getElem?_eq_some_iff.1 ha).1
    have hb' := (List.getElem?_eq_some_iff.1 hb).1
    simp only [List.length_cons, List.length_nil] at ha' hb'
    match a, b, ha', hb', hne with
    | 0, 1, _, _, _ =>
      cases ha; cases hb
      rw [List.mem_singleton.1 ho, List.mem_singleton.1 ho']
      intro e
      have e' : 1 = 2 + l' := e
      omega
    | 1, 0, _, _, _ =>
      cases ha; cases hb
      rw [List.mem_singleton.1 ho, List.mem_singleton.1 ho']
      intro e
      have e' : 2 + l = 1 := e
      omega
    | 0, 0, _, _, hne => exact absurd rfl hne
    | 1, 1, _, _, hne => exact absurd rfl hne

/-! ### Cases in which the property fails -/

/-- The operation of a single lane with index 0 -/
def oneLane : Op (BitVec 32) := ⟨fun _ => 0, fun _ _ => 7, fun l => decide (l = 0)⟩

theorem oneLane_groups {t : Target} (h : 0 < t.size / 2) : GroupsExist 2 2 t [[], [oneLane]] := by
  intro os hos o ho l _ _
  simp only [List.mem_cons, List.not_mem_nil, or_false] at hos
  rcases hos with rfl | rfl
  · cases ho
  · rw [List.mem_singleton.1 ho]; exact h

/-- **C70** fails for memory that is not aligned (`jit_var_mem_map`; packet gathers test this, packet scatters do not): an operation that refers to an existing
group performs a misaligned access.  (Two 32-bit numbers at address 4100, a vector with two lanes.) -/
theorem C70_unaligned_counterexample (debug : Bool) (m : Option Nat → BitVec 32) :
    Target.OK ⟨4100, 2, 2⟩ ∧ GroupsExist 2 2 ⟨4100, 2, 2⟩ [[], [oneLane]] ∧ NoSharedGroups 2 [[], [oneLane]] ∧
    ¬ (scatterKernel none debug 2 2 ⟨4100, 2, 2⟩ (fun _ i => i) [[], [oneLane]]).Safe (fun _ l => ∃ e, e < 2 ∧ l = some (4100 + 4 * e)) m := by
  refine ⟨⟨by decide, by decide, by decide, by decide⟩, oneLane_groups (by decide), ?_, fun h => ?_⟩
  · intro a b os qs ha hb hne o ho q hq l l' _ _ _ _
    match a, b, hne with
    | 0, _, _ => cases ha; cases ho
    | 1, 0, _ => cases hb; cases hq
    | 1, 1, hne => exact absurd rfl hne
    | 1, b + 2, _ => cases hb
    | a + 2, _, _ => cases ha
  · have h1 := h m _ 1 (.refl _)
    have e : ∃ v k, tasks (scatterKernel none debug 2 2 ⟨4100, 2, 2⟩ (fun _ i => i) [[], [oneLane]]).1
        (scatterKernel none debug 2 2 ⟨4100, 2, 2⟩ (fun _ i => i) [[], [oneLane]]).2 1 = .write none v k := by
      cases debug <;> exact ⟨_, _, rfl⟩
    obtain ⟨v, k, e⟩ := e
    obtain ⟨_, _, h2⟩ := h1.2 none v k e
    cases h2

/-- **C70** fails for targets of size 1, which are accepted as well, also in debug mode: a packet of two elements is written. -/
theorem C70_size_one_counterexample (debug : Bool) (m : Option Nat → BitVec 32) :
    ¬ (scatterKernel none debug 2 2 ⟨4096, 2, 1⟩ (fun _ i => i) [[], [oneLane]]).Safe (fun _ l => ∃ e, e < 1 ∧ l = some (4096 + 4 * e)) m := by
  intro h
  have e : ∃ v v' k, tasks (scatterKernel none debug 2 2 ⟨4096, 2, 1⟩ (fun _ i => i) [[], [oneLane]]).1
      (scatterKernel none debug 2 2 ⟨4096, 2, 1⟩ (fun _ i => i) [[], [oneLane]]).2 1 = .write (some 4096) v (.write (some 4100) v' k) := by
    cases debug <;> exact ⟨_, _, _, rfl⟩
  obtain ⟨v, v', k, e⟩ := e
  obtain ⟨_, h2, h3⟩ := (h _ _ 1 (.step (.refl _) (.write m _ 1 (some 4096) v _ e))).2 (some 4100) v' k (if_pos rfl)
  have := Option.some.inj h3
  omega

/-- **C70, C27** fail in debug mode for reductions to expanded arrays: the index that contains the number of the thread is compared with the size of
the array before the expansion.  The operation of thread 1, which refers to an existing group, is not executed.  (An array of two 32-bit numbers, two workers.) -/
theorem C70_debug_expand_counterexample (op : BitVec 32 → BitVec 32 → BitVec 32) (m m' : Option Nat → BitVec 32) :
    GroupsExist 2 2 ⟨4096, 2, 2⟩ [[], [oneLane]] ∧ supplied 2 2 oneLane 0 = [7] ∧
    ((scatterKernel (some op) true 2 2 ⟨4096, 2, 2⟩ (Llvm.slotOf 2 4 2) [[], [oneLane]]).Ends m m' → m' = m) := by
  refine ⟨oneLane_groups (by decide), rfl, ?_⟩
  rintro ⟨ps, h, _⟩
  have e : tasks (scatterKernel (some op) true 2 2 ⟨4096, 2, 2⟩ (Llvm.slotOf 2 4 2) [[], [oneLane]]).1
      (scatterKernel (some op) true 2 2 ⟨4096, 2, 2⟩ (Llvm.slotOf 2 4 2) [[], [oneLane]]).2 = fun _ => .pure () := by
    funext i
    match i with
    | 0 => rfl
    | 1 => rfl
    | i + 2 => exact if_neg (by change ¬ i + 2 < 2; omega)
  rw [e] at h
  have key : ∀ (s s' : PState (Option Nat) (BitVec 32)), PSteps s s' → s.2 = (fun _ => .pure ()) → s' = s := by
    intro s s' hs h0
    induction hs with
    | refl => rfl
    | step _ h1 ih =>
      cases ih
      cases h1 with
      | read _ _ _ _ _ h2 => cases (congrFun h0 _).symm.trans h2
      | write _ _ _ _ _ _ h2 => cases (congrFun h0 _).symm.trans h2
  exact congrArg Prod.fst (key _ _ h rfl)

end Verif.Packet
