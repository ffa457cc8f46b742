import Verif.Atomic.NoConf
import Verif.Llvm.Expanded

/-!
# Scatter-reductions to expanded arrays, from the kernel to the final result (C27, C66)
-/
namespace Verif.Atomic

open Verif.Par
open Verif.Llvm (Loc ExpandOk expandArray slotOf reduceExpanded identityTable IsReduction ROp Update runUpdates)

/-- The lanes of a kernel as a list of updates; the first thread has the number `a`. -/
def history {V : Type} (w : Nat) (a : Nat) (threads : List (List (Packet V))) : List (Update V) :=
  (threads.zipIdx a).flatMap fun x => x.1.flatMap fun p =>
    ((List.range w).filter p.mask).map fun i => { thread := x.2, index := p.index i, value := p.val i }

/-- op.cpp:2876-2888: the index is replaced by an expression that involves the number of the thread. -/
def reindex {V : Type} (f : Nat → Nat → Nat) (a : Nat) (threads : List (List (Packet V))) : List (List (Packet V)) :=
  (threads.zipIdx a).map fun x => x.1.map fun p => { p with index := fun i => f x.2 (p.index i) }

theorem contributions_reindex {V : Type} (f : Nat → Nat → Nat) (w a : Nat) (threads : List (List (Packet V))) (k : Nat) :
    contributions w (reindex f a threads) k =
      ((history w a threads).filter fun u => decide (f u.thread u.index = k)).map Update.value := by
  induction threads generalizing a with
  | nil => rfl
  | cons ps pss ih =>
    have h1 := ih (a + 1)
    simp only [reindex, history, List.zipIdx_cons, List.map_cons, List.flatMap_cons, List.filter_append, List.map_append] at h1 ⊢
    rw [contributions_cons, h1]
    congr 1
    simp only [contributions, List.flatMap_cons, List.flatMap_nil, List.append_nil]
    induction ps with
    | nil => rfl
    | cons p ps ih =>
      simp only [List.map_cons, List.flatMap_cons, List.filter_append, List.map_append, ih]
      congr 1
      rw [List.filter_map, List.map_map, List.filter_filter]
      have e : (List.range w).filter (fun i => p.mask i && decide (f a (p.index i) = k)) =
          (List.range w).filter fun i => ((fun u : Update V => decide (f u.thread u.index = k)) ∘
            fun i => ({ thread := a, index := p.index i, value := p.val i } : Update V)) i && p.mask i := by
        refine List.filter_congr fun i _ => ?_
        rw [Bool.and_comm]; rfl
      rw [e]
      rfl

theorem reindex_id {V : Type} (a : Nat) (threads : List (List (Packet V))) : reindex (fun _ i => i) a threads = threads := by
  induction threads generalizing a with
  | nil => rfl
  | cons ps pss ih =>
    have := ih (a + 1)
    simp only [reindex, List.zipIdx_cons, List.map_cons] at this ⊢
    rw [this]
    congr 1
    exact List.map_id' _

theorem runUpdates_at {V A : Type} (r : Llvm.Red V A) (workers tsize size : Nat) (s : Nat → V) (hist : List (Update V)) (k : Nat) :
    runUpdates r workers tsize size s hist k =
      ((hist.filter fun u => decide (slotOf workers tsize size u.thread u.index = k)).map Update.value).foldl r.opT (s k) := by
  unfold runUpdates
  induction hist generalizing s with
  | nil => rfl
  | cons u us ih =>
    rw [List.foldl_cons, ih, List.filter_cons]
    by_cases e : k = slotOf workers tsize size u.thread u.index
    · rw [if_pos e, decide_eq_true e.symm]
      rfl
    · rw [if_neg e, decide_eq_false (fun h => e h.symm)]
      rfl

/-- The same operations in the code for the collapse of an array -/
def IntOp.rop : IntOp → ROp
  | .add => .add
  | .min => .min
  | .max => .max
  | .and => .and
  | .or => .or

theorem rop_eval {n : Nat} (signed : Bool) (op : IntOp) : (Llvm.intRed signed n op.rop).opT = op.eval signed := by
  rw [← intOp_eval]
  funext a b
  simp only [Llvm.Red.opT, Llvm.intRed, id_eq]
  cases op <;> cases signed <;> rfl

theorem gep_size {base tsize size size' : Nat} (h : size ≤ 0x7fffffff) (h' : size' ≤ 0x7fffffff) (i : Nat) :
    gep base tsize size i = gep base tsize size' i := by
  unfold gep
  rw [if_neg (by omega : ¬ size > 0x7fffffff), if_neg (by omega : ¬ size' > 0x7fffffff)]

theorem ncKernel_size {V : Type} {r : Red V} {base shift size size' w : Nat} (h : size ≤ 0x7fffffff) (h' : size' ≤ 0x7fffffff)
    {threads : List (List (Packet V))} : ncKernel r ⟨base, shift, size⟩ w threads = ncKernel r ⟨base, shift, size'⟩ w threads := by
  have e : ∀ p : Packet V, Target.ptr ⟨base, shift, size⟩ p = Target.ptr ⟨base, shift, size'⟩ p :=
    fun p => funext fun i => gep_size h h' _
  have e' : ∀ ps : List (Packet V), ncThread r ⟨base, shift, size⟩ w ps = ncThread r ⟨base, shift, size'⟩ w ps := by
    intro ps
    induction ps with
    | nil => rfl
    | cons p ps ih =>
      simp only [ncThread, noconf, ih, e]
  simp only [ncKernel, e']

/-- **C27, C66** (mode `Expand`): from the initial array to the collapsed array, with the code of the kernel.
The array is expanded; any number of threads (at most one per worker) run any packets of lanes, whose accesses are
interleaved in any way; the array is collapsed.  Entry `i` is the reduction of its initial value and the
values of all active lanes that refer to `i`.  The generated code uses the size before the expansion to choose the width of
indices (`⟨base, shift, size⟩`), the array occupies `⟨base, shift, new_size⟩`.  (Restrictions: sizes as in
`C27_integers_partial`; addresses as in `C66_reduce_noconflict_partial`; the expanded array has less than `2^31` entries, see
`C27_index_counterexample`.) -/
theorem C27_kernel_partial {n : Nat} (hn : n = 8 ∨ n = 16 ∨ n = 32 ∨ n = 64) (signed : Bool) (op : IntOp) {workers ideal size b : Nat}
    (h : ExpandOk workers (n / 8) size) (hw2 : 2 ≤ workers) (hid : 0 < ideal) (hid2 : ideal ≤ 2 ^ 31) (hbytes : size * (n / 8) < 2 ^ 32)
    (src : Nat → BitVec n) {w : Nat} (threads : List (List (Packet (BitVec n)))) (hth : threads.length ≤ workers)
    (hb : ∀ ps ∈ threads, ∀ p ∈ ps, ∀ i, i < w → p.mask i = true → p.index i < size) :
    ∃ new_size arr, expandArray workers (n / 8) size (BitVec.ofNat n (identityTable signed n op.rop)) src = some (new_size, arr) ∧
      ∀ base shift, Target.OK ⟨base, shift, new_size⟩ → Target.NoZero ⟨base, shift, new_size⟩ → new_size ≤ 0x7fffffff →
      ∀ m0 m1 : Option Nat → BitVec n, (∀ k, k < new_size → m0 (some (base + 2 ^ shift * k)) = arr k) →
      (ncKernel (intRed n signed op) ⟨base, shift, size⟩ w (reindex (slotOf workers (n / 8) size) 0 threads)).Ends m0 m1 →
      ∀ m m' : Loc → BitVec n, (∀ k, k < new_size → m (b, k) = m1 (some (base + 2 ^ shift * k))) →
      (reduceExpanded (Llvm.intRed signed n op.rop) workers ideal (n / 8) size b).Ends m m' →
      ∀ i, i < size → IsReduction signed op.rop (src i :: contributions w threads i) (m' (b, i)) := by
  have hh : ∀ u, u ∈ history w 0 threads → u.thread < workers ∧ u.index < size := by
    intro u hu
    simp only [history, List.mem_flatMap] at hu
    obtain ⟨⟨ps, a⟩, h1, p, h2, h3⟩ := hu
    obtain ⟨i, h4, rfl⟩ := List.mem_map.1 h3
    obtain ⟨h5, h6⟩ := List.mem_filter.1 h4
    obtain ⟨h7, h8, h9⟩ := List.mem_zipIdx h1
    refine ⟨by simp only; omega, hb ps ?_ p h2 i (List.mem_range.1 h5) h6⟩
    rw [h9]; exact List.getElem_mem _
  obtain ⟨ns, arr, h1, h2, _⟩ := Llvm.C27_expanded_partial (Llvm.intRed signed n op.rop) workers ideal (n / 8) size b h hw2 hid hid2 hbytes src
    (history w 0 threads) hh
  obtain ⟨ns', arr', h3, h4⟩ := Llvm.C27_integers_partial signed hn op.rop workers ideal size b h hw2 hid hid2 hbytes src (history w 0 threads) hh
  rw [← Llvm.identity_init signed op.rop hn, h3, Option.some.injEq, Prod.mk.injEq] at h1
  obtain ⟨rfl, rfl⟩ := h1
  refine ⟨ns', arr', h3, fun base shift ht hz hns m0 m1 hm0 he m m' hm hm' i hi => ?_⟩
  obtain ⟨rpw, hr1, hr2, hr, _, _, hslot⟩ := h.facts
  have hns' : ns' = size * rpw * workers := by
    unfold expandArray at h3
    rw [if_neg (by have := h.fits; omega), Option.some.injEq, Prod.mk.injEq, hr1, hr2] at h3
    exact h3.1.symm
  have hsz : size ≤ ns' := by
    rw [hns', Nat.mul_assoc]
    exact Nat.le_mul_of_pos_right _ (Nat.mul_pos hr h.wpos)
  rw [ncKernel_size (by omega : size ≤ 0x7fffffff) hns] at he
  let t : Target := ⟨base, shift, ns'⟩
  have hts : t.size = ns' := rfl
  -- the lanes of the kernel
  have hget : ∀ (a : Nat) (ps : List (Packet (BitVec n))), (reindex (slotOf workers (n / 8) size) 0 threads)[a]? = some ps →
      ∃ qs, threads[a]? = some qs ∧ ps = qs.map fun p => { p with index := fun i => slotOf workers (n / 8) size a (p.index i) } := by
    intro a ps ha
    simp only [reindex, List.getElem?_map, List.getElem?_zipIdx, Option.map_eq_some_iff] at ha
    obtain ⟨⟨qs, a'⟩, ⟨x, hx, hx'⟩, rfl⟩ := ha
    simp only [Prod.mk.injEq, Nat.zero_add] at hx'
    obtain ⟨rfl, rfl⟩ := hx'
    exact ⟨x, hx, rfl⟩
  have huse : ∀ (a : Nat) (ps : List (Packet (BitVec n))) (j : Nat), (reindex (slotOf workers (n / 8) size) 0 threads)[a]? = some ps →
      Uses w ps j → a < workers ∧ ∃ x, x < size ∧ j = x + a * rpw * size ∧ j < ns' := by
    rintro a ps j ha ⟨p, hp, i, hi, hm, rfl⟩
    obtain ⟨qs, hq, rfl⟩ := hget a ps ha
    obtain ⟨q, hq', rfl⟩ := List.mem_map.1 hp
    have hal := (List.getElem?_eq_some_iff.1 hq).1
    have hx := hb qs (List.mem_of_getElem? hq) q hq' i hi hm
    refine ⟨by omega, q.index i, hx, hslot a (q.index i) (by omega) hx, ?_⟩
    refine h2 ⟨a, q.index i, q.val i⟩ ?_
    simp only [history, List.mem_flatMap]
    refine ⟨(qs, a), ?_, q, hq', List.mem_map.2 ⟨i, List.mem_filter.2 ⟨List.mem_range.2 hi, hm⟩, rfl⟩⟩
    rw [List.mem_iff_getElem?]
    exact ⟨a, by simp [List.getElem?_zipIdx, hq]⟩
  have hin : InBounds w t (reindex (slotOf workers (n / 8) size) 0 threads) := by
    intro ps hps p hp i hi hm
    obtain ⟨a, ha⟩ := List.mem_iff_getElem?.1 hps
    obtain ⟨_, x, _, _, hx⟩ := huse a ps (p.index i) ha ⟨p, hp, i, hi, hm, rfl⟩
    omega
  have hdis : ∀ a b x y, x < size → y < size → a < b → x + a * rpw * size ≠ y + b * rpw * size := by
    intro a b x y hx hy hab e
    have h5 : (a + 1) * (rpw * size) ≤ b * (rpw * size) := Nat.mul_le_mul_right _ hab
    have h6 : 1 * size ≤ rpw * size := Nat.mul_le_mul_right _ hr
    rw [Nat.add_mul] at h5
    rw [Nat.mul_assoc, Nat.mul_assoc] at e
    omega
  have hnc : NoConflicts w (reindex (slotOf workers (n / 8) size) 0 threads) := by
    intro a c ps qs j ha hc hne hu1 hu2
    obtain ⟨_, x, hx, e1, _⟩ := huse a ps j ha hu1
    obtain ⟨_, y, hy, e2, _⟩ := huse c qs j hc hu2
    rcases Nat.lt_or_gt_of_ne hne with hlt | hlt
    · exact hdis a c x y hx hy hlt (by rw [← e1, ← e2])
    · exact hdis c a y x hy hx hlt (by rw [← e1, ← e2])
  have h5 := ((C66_reduce_noconflict_partial (signed := signed) (op := op) ht hz hin hnc m0).2 m1 he).1
  have h6 := h4 m m' (fun k hk => by
    rw [hm k hk]
    refine (h5 k).trans ?_
    have h8 : m0 (some (t.addr k)) = arr' k := hm0 k hk
    rw [contributions_reindex, h8, runUpdates_at, rop_eval]) hm' i hi
  have h7 := contributions_reindex (fun _ i => i) w 0 threads i
  rw [reindex_id] at h7
  rw [h7]
  exact h6

/-- **C27** fails if the expanded array has more than `2^31` entries: the code chooses 32-bit indices, as the array
had few entries before the expansion, and regards them as signed numbers.  A thread writes to an address outside of the array.
(2^28 - 1 bytes, 16 workers, the last thread, entry 0.) -/
theorem C27_index_counterexample :
    ExpandOk 16 1 (2 ^ 28 - 1) ∧ Target.OK ⟨2 ^ 33, 0, (2 ^ 28 - 1) * 16⟩ ∧
    (∃ arr : Nat → BitVec 8, expandArray 16 1 (2 ^ 28 - 1) 0 (fun _ => 0) = some ((2 ^ 28 - 1) * 16, arr)) ∧
    slotOf 16 1 (2 ^ 28 - 1) 15 0 < (2 ^ 28 - 1) * 16 ∧
    ∀ j, 2 ^ 33 + j ≠ gep (2 ^ 33) 1 (2 ^ 28 - 1) (slotOf 16 1 (2 ^ 28 - 1) 15 0) := by
  have h : slotOf 16 1 (2 ^ 28 - 1) 15 0 = 15 * (2 ^ 28 - 1) := by decide
  refine ⟨⟨by omega, by omega, by omega, by decide⟩, ⟨by decide, by decide, by decide, by decide⟩,
    ⟨fun i => if i < Llvm.mul32 (2 ^ 28 - 1) 1 / 1 then 0 else 0, ?_⟩, by rw [h]; decide, ?_⟩
  · unfold expandArray
    rw [if_neg (by decide)]
    rfl
  · intro j
    rw [h]
    have : gep (2 ^ 33) 1 (2 ^ 28 - 1) (15 * (2 ^ 28 - 1)) = 2 ^ 33 + 15 * (2 ^ 28 - 1) - 2 ^ 32 := by decide
    rw [this]
    omega

/-- The hypotheses can be met: 1000 32-bit numbers, 8 workers, two threads that add to entry 3 -/
example : ∃ threads : List (List (Packet (BitVec 32))), ExpandOk 8 (32 / 8) 1000 ∧ threads.length ≤ 8 ∧
    (∀ ps ∈ threads, ∀ p ∈ ps, ∀ i, i < 2 → p.mask i = true → p.index i < 1000) ∧ contributions 2 threads 3 = [1, 1, 1, 1] := by
  refine ⟨[[⟨fun _ => 3, fun _ => 1, fun _ => true⟩], [⟨fun _ => 3, fun _ => 1, fun _ => true⟩]],
    ⟨by omega, by omega, by omega, by decide⟩, by decide, ?_, rfl⟩
  intro ps hps p hp i hi _
  simp only [List.mem_cons, List.not_mem_nil, or_false, or_self] at hps
  rw [hps] at hp
  rw [List.mem_singleton.1 hp]
  exact (by decide : 3 < 1000)

end Verif.Atomic
