import Verif.Packet.ScatterProps
import Verif.Atomic.Expand

/-!
# Packet scatter-additions to expanded arrays, from the kernel to the final result (C27, C70)
-/
namespace Verif.Packet

open Verif.Par
open Verif.Atomic (Target gep IntOp runUpdates_at rop_eval)
open Verif.Llvm (Loc ExpandOk expandArray slotOf reduceExpanded identityTable IsReduction ROp Update runUpdates)

variable {V : Type}

/-- The elements of the packets of a kernel as a list of updates; the first thread has the number `a`. -/
def history (n w : Nat) (a : Nat) (threads : List (List (Op V))) : List (Update V) :=
  (threads.zipIdx a).flatMap fun x => x.1.flatMap fun o => (List.range w).flatMap fun l =>
    if o.mask l = true then (List.range n).map fun e => ⟨x.2, n * o.index l + e, o.val e l⟩ else []

theorem filter_row {n st k : Nat} (f : Nat → Update V) (g : Update V → Nat) (row : Nat → V) (h1 : ∀ e, e < n → g (f e) = st + e)
    (h2 : ∀ e, e < n → (f e).value = row e) :
    ((((List.range n).map f).filter fun u => decide (g u = k)).map Update.value) = rowVals n st row k := by
  unfold rowVals
  induction n with
  | zero =>
    rw [if_neg (by omega)]; rfl
  | succ n ih =>
    rw [List.range_succ, List.map_append, List.filter_append, List.map_append, ih (fun e he => h1 e (by omega)) (fun e he => h2 e (by omega))]
    simp only [List.map_cons, List.map_nil, List.filter_cons, List.filter_nil]
    rw [h1 n (by omega)]
    by_cases hk : st + n = k
    · rw [if_neg (by omega), decide_eq_true hk, if_pos rfl, if_pos (by omega)]
      subst hk
      rw [Nat.add_sub_cancel_left]
      simp [h2 n (by omega)]
    · rw [decide_eq_false hk, if_neg Bool.false_ne_true, List.map_nil, List.append_nil]
      by_cases hj : st ≤ k ∧ k < st + n
      · rw [if_pos hj, if_pos (by omega)]
      · rw [if_neg hj, if_neg (by omega)]

theorem history_filter {n w : Nat} {slot : Nat → Nat → Nat} {a : Nat} {threads : List (List (Op V))} (g : Update V → Nat) (ix : Nat → Op V → Nat → Nat) (k : Nat)
    (h : ∀ (b : Nat) (os : List (Op V)), threads[b]? = some os → ∀ o ∈ os, ∀ l, l < w → o.mask l = true → ∀ e, e < n →
      g ⟨a + b, n * o.index l + e, o.val e l⟩ = ix (a + b) o l + e) :
    (((history n w a threads).filter fun u => decide (g u = k)).map Update.value) =
      (threads.zipIdx a).flatMap fun x => x.1.flatMap fun o => (List.range w).flatMap (laneVals n o.mask (ix x.2 o) (fun l e => o.val e l) k) := by
  have hff : ∀ {β γ : Type} (l : List β) (f : β → List (Update V)) (g' : β → List V), (∀ x ∈ l, (((f x).filter fun u => decide (g u = k)).map Update.value) = g' x) →
      (((l.flatMap f).filter fun u => decide (g u = k)).map Update.value) = l.flatMap g' := by
    intro β γ l f g' hx
    induction l with
    | nil => rfl
    | cons x l ih =>
      rw [List.flatMap_cons, List.filter_append, List.map_append, hx x (List.mem_cons_self ..), ih fun y hy => hx y (List.mem_cons_of_mem _ hy), List.flatMap_cons]
  unfold history
  refine hff (γ := Unit) _ _ _ ?_
  rintro ⟨os, b⟩ hx
  obtain ⟨h1, h2, h3⟩ := List.mem_zipIdx hx
  have hb : threads[b - a]? = some os := by rw [h3]; exact List.getElem?_eq_getElem _
  refine hff (γ := Unit) _ _ _ fun o ho => hff (γ := Unit) _ _ _ fun l hl => ?_
  have hl := List.mem_range.1 hl
  unfold laneVals
  by_cases hm : o.mask l = true
  · rw [if_pos hm, if_pos hm]
    refine filter_row _ g _ (fun e he => ?_) fun e he => rfl
    have := h (b - a) os hb o ho l hl hm e he
    rwa [show a + (b - a) = b by omega] at this
  · rw [if_neg hm, if_neg hm]; rfl

/-- **C27, C70** (packet scatter-additions in the mode `Expand`, without debug mode): from the initial array to the collapsed array, with the code of
the kernel.  The array is expanded; any number of threads (at most one per worker) execute any packet operations, whose accesses are interleaved in any
way; the array is collapsed.  Entry `i` is the sum of its initial value and all values that active lanes supply for it.  (Restrictions as in `C27_kernel_partial`
and `C70_scatter_packet_partial`.) -/
theorem C27_packet_partial {bits : Nat} (hb8 : bits = 8 ∨ bits = 16 ∨ bits = 32 ∨ bits = 64) (signed : Bool) {workers ideal size b : Nat}
    (h : ExpandOk workers (bits / 8) size) (hw2 : 2 ≤ workers) (hid : 0 < ideal) (hid2 : ideal ≤ 2 ^ 31) (hbytes : size * (bits / 8) < 2 ^ 32)
    (src : Nat → BitVec bits) {w k n : Nat} (hw : w = 2 ^ k) (hk : 1 ≤ k) (hn : 0 < n) (hev : n % 2 = 0) (hdvd : n ∣ size)
    (threads : List (List (Op (BitVec bits)))) (hth : threads.length ≤ workers)
    (hg : ∀ os ∈ threads, ∀ o ∈ os, ∀ l, l < w → o.mask l = true → o.index l < size / n) :
    ∃ new_size arr, expandArray workers (bits / 8) size (BitVec.ofNat bits (identityTable signed bits .add)) src = some (new_size, arr) ∧
      ∀ base shift, Target.OK ⟨base, shift, new_size⟩ → shift ≤ 3 → min 64 (w * 2 ^ shift) ∣ base → new_size ≤ 0x7fffffff →
      ∀ m0 m1 : Option Nat → BitVec bits, (∀ k, k < new_size → m0 (some (base + 2 ^ shift * k)) = arr k) →
      (scatterKernel (some (IntOp.add.eval signed)) false w n ⟨base, shift, size⟩ (slotOf workers (bits / 8) size) threads).Ends m0 m1 →
      ∀ m m' : Loc → BitVec bits, (∀ k, k < new_size → m (b, k) = m1 (some (base + 2 ^ shift * k))) →
      (reduceExpanded (Llvm.intRed signed bits .add) workers ideal (bits / 8) size b).Ends m m' →
      ∀ i, i < size → IsReduction signed .add (src i :: threads.flatMap fun os => os.flatMap fun o => supplied n w o i) (m' (b, i)) := by
  obtain ⟨rpw, hr1, hr2, hr, _, hlt, hslot⟩ := h.facts
  -- entries of packets
  have hgrp : ∀ (a : Nat) (os : List (Op (BitVec bits))), threads[a]? = some os → ∀ o ∈ os, ∀ l, l < w → o.mask l = true →
      a < workers ∧ n * o.index l + n ≤ size ∧ (∀ e, e < n → slotOf workers (bits / 8) size a (n * o.index l + e) = n * o.index l + a * rpw * size + e) ∧
      start (slotOf workers (bits / 8) size) n a o l = n * o.index l + a * rpw * size := by
    intro a os ha o ho l hl hm
    have hal := (List.getElem?_eq_some_iff.1 ha).1
    have h2 := (Nat.le_div_iff_mul_le hn).1 (hg os (List.mem_of_getElem? ha) o ho l hl hm)
    rw [Nat.succ_mul, Nat.mul_comm] at h2
    have hsz : size < 2 ^ 32 := by
      have h3 : size * 1 ≤ size * (rpw * workers) := Nat.mul_le_mul_left _ (Nat.mul_pos hr h.wpos)
      omega
    refine ⟨by omega, h2, fun e he => ?_, ?_⟩
    · rw [hslot a _ (by omega) (by omega)]; omega
    · unfold start
      rw [Nat.mul_comm (o.index l), Nat.mod_eq_of_lt (by omega), hslot a _ (by omega) (by omega)]
  have hh : ∀ u, u ∈ history n w 0 threads → u.thread < workers ∧ u.index < size := by
    intro u hu
    simp only [history, List.mem_flatMap] at hu
    obtain ⟨⟨os, a⟩, h1, o, h2, l, h3, h4⟩ := hu
    obtain ⟨h7, h8, h9⟩ := List.mem_zipIdx h1
    have ha : threads[a]? = some os := by rw [h9]; exact List.getElem?_eq_getElem _
    by_cases hm : o.mask l = true
    · rw [if_pos hm] at h4
      obtain ⟨e, he, rfl⟩ := List.mem_map.1 h4
      obtain ⟨g1, g2, _, _⟩ := hgrp a os ha o h2 l (List.mem_range.1 h3) hm
      have := List.mem_range.1 he
      exact ⟨g1, by simp only; omega⟩
    · rw [if_neg hm] at h4; cases h4
  obtain ⟨ns, arr, h3, h4⟩ := Llvm.C27_integers_partial signed hb8 .add workers ideal size b h hw2 hid hid2 hbytes src (history n w 0 threads) hh
  refine ⟨ns, arr, h3, fun base shift ht hsh hal hns m0 m1 hm0 he m m' hm hm' i hi => ?_⟩
  have hns' : ns = size * rpw * workers := by
    unfold expandArray at h3
    rw [if_neg (by have := h.fits; omega), Option.some.injEq, Prod.mk.injEq, hr1, hr2] at h3
    exact h3.1.symm
  let t : Target := ⟨base, shift, ns⟩
  have hts : t.size = ns := rfl
  have hin : ∀ a x, a < workers → x ≤ size → x + a * rpw * size ≤ ns := by
    intro a x ha hx
    have h5 : (a + 1) * (rpw * size) ≤ workers * (rpw * size) := Nat.mul_le_mul_right _ ha
    have h6 : 1 * size ≤ rpw * size := Nat.mul_le_mul_right _ hr
    have h7 : workers * (rpw * size) = ns := by rw [hns', Nat.mul_comm workers, Nat.mul_comm rpw]
    rw [Nat.add_mul] at h5
    rw [Nat.mul_assoc]
    omega
  have hdis : ∀ a b x y, x < size → y < size → a < b → x + a * rpw * size ≠ y + b * rpw * size := by
    intro a b x y hx hy hab e
    have h5 : (a + 1) * (rpw * size) ≤ b * (rpw * size) := Nat.mul_le_mul_right _ hab
    have h6 : 1 * size ≤ rpw * size := Nat.mul_le_mul_right _ hr
    rw [Nat.add_mul] at h5
    rw [Nat.mul_assoc, Nat.mul_assoc] at e
    omega
  have hk1 := scatterKernel_spec (op := some (IntOp.add.eval signed)) (debug := false) (slot := slotOf workers (bits / 8) size) (t := t) (size' := size)
    (threads := threads) ht hw hk hsh hal hn hev (Or.inr (by omega)) ?_ ?_ m0
  · have h5 := ((hk1.2 m1 he).1)
    have h6 := h4 m m' (fun j hj => by
      rw [hm j hj]
      refine (h5 j).trans ?_
      have h8 : m0 (some (t.addr j)) = arr j := hm0 j hj
      rw [h8, runUpdates_at, history_filter (slot := slotOf workers (bits / 8) size) (fun u => slotOf workers (bits / 8) size u.thread u.index)
        (fun a o l => start (slotOf workers (bits / 8) size) n a o l) j ?_]
      · have e : (Llvm.intRed signed bits .add).opT = IntOp.add.eval signed := rop_eval signed IntOp.add
        rw [e]
        rfl
      · intro a os ha o ho l hl hm e he
        rw [Nat.zero_add]
        obtain ⟨_, _, g3, g4⟩ := hgrp a os ha o ho l hl hm
        rw [g4]
        exact g3 e he) hm' i hi
    have h7 := history_filter (slot := slotOf workers (bits / 8) size) (n := n) (w := w) (a := 0) (threads := threads) Update.index (fun _ o l => n * o.index l) i
      (fun _ _ _ _ _ _ _ _ _ _ => rfl)
    have h8 := flatMap_zipIdx (fun os : List (Op (BitVec bits)) => os.flatMap fun o => (List.range w).flatMap (laneVals n o.mask (fun l => n * o.index l) (fun l e => o.val e l) i)) threads 0
    rw [h7, h8] at h6
    have e : (threads.flatMap fun os => os.flatMap fun o => supplied n w o i) =
        threads.flatMap fun os => os.flatMap fun o => (List.range w).flatMap (laneVals n o.mask (fun l => n * o.index l) (fun l e => o.val e l) i) :=
      List.flatMap_congr fun os _ => List.flatMap_congr fun o _ => (laneVals_supplied (fun _ _ _ => rfl) i).symm
    rw [e]
    exact h6
  · intro a os ha o ho l hl hm
    obtain ⟨g1, g2, _, g4⟩ := hgrp a os ha o ho l hl hm
    rw [g4]
    refine ⟨Nat.dvd_add (Nat.dvd_mul_right ..) (Dvd.dvd.mul_left hdvd _), ?_, fun hc => by cases hc⟩
    have := hin a (n * o.index l + n) g1 g2
    omega
  · rintro a c os qs j ha hc hne ⟨o, ho, l, hl, hm, h1, h2⟩ ⟨q, hq, l', hl', hm', h5, h6⟩
    obtain ⟨g1, g2, _, g4⟩ := hgrp a os ha o ho l hl hm
    obtain ⟨f1, f2, _, f4⟩ := hgrp c qs hc q hq l' hl' hm'
    rw [g4] at h1 h2
    rw [f4] at h5 h6
    rcases Nat.lt_or_gt_of_ne hne with hlt' | hlt'
    · exact hdis a c (j - a * rpw * size) (j - c * rpw * size) (by omega) (by omega) hlt' (by omega)
    · exact hdis c a (j - c * rpw * size) (j - a * rpw * size) (by omega) (by omega) hlt' (by omega)

/-- The hypotheses can be met: 1000 32-bit numbers, 8 workers, packets of 4 elements, two threads that add to group 3 -/
example : ∃ threads : List (List (Op (BitVec 32))), ExpandOk 8 (32 / 8) 1000 ∧ threads.length ≤ 8 ∧
    (∀ os ∈ threads, ∀ o ∈ os, ∀ l, l < 2 → o.mask l = true → o.index l < 1000 / 4) ∧
    (threads.flatMap fun os => os.flatMap fun o => supplied 4 2 o 13) = [1, 1, 1, 1] := by
  refine ⟨[[⟨fun _ => 3, fun i _ => BitVec.ofNat 32 i, fun _ => true⟩], [⟨fun _ => 3, fun i _ => BitVec.ofNat 32 i, fun _ => true⟩]],
    ⟨by omega, by omega, by omega, by decide⟩, by decide, ?_, rfl⟩
  intro ps hps p hp i hi _
  simp only [List.mem_cons, List.not_mem_nil, or_false, or_self] at hps
  rw [hps] at hp
  rw [List.mem_singleton.1 hp]
  exact (by decide : 3 < 1000 / 4)

end Verif.Packet
