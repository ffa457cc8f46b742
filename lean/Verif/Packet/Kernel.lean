import Verif.Packet.Scatter
import Verif.Atomic.NoConf

/-!
# Packet scatters by several threads (C70)
-/
namespace Verif.Packet

open Verif.Par
open Verif.Atomic (Target gep)

variable {V : Type}

/-- First entry of the packet of a lane -/
def start (slot : Nat → Nat → Nat) (n a : Nat) (o : Op V) (l : Nat) : Nat := slot a (o.index l * n % 2 ^ 32)

/-- A thread uses entry `j`. -/
def UsesAt (slot : Nat → Nat → Nat) (n w a : Nat) (os : List (Op V)) (j : Nat) : Prop :=
  ∃ o ∈ os, ∃ l, l < w ∧ o.mask l = true ∧ start slot n a o l ≤ j ∧ j < start slot n a o l + n

/-- The values that a thread supplies for entry `j` -/
def threadVals (slot : Nat → Nat → Nat) (n w a : Nat) (os : List (Op V)) (j : Nat) : List V :=
  os.flatMap fun o => (List.range w).flatMap (laneVals n o.mask (start slot n a o) (fun l e => o.val e l) j)

/-- The values that threads supply for entry `j`; the first one has the number `a`. -/
def kernelVals (slot : Nat → Nat → Nat) (n w a : Nat) (threads : List (List (Op V))) (j : Nat) : List V :=
  (threads.zipIdx a).flatMap fun x => threadVals slot n w x.2 x.1 j

theorem threadVals_nil {slot : Nat → Nat → Nat} {n w a : Nat} {os : List (Op V)} {j : Nat} (h : ¬ UsesAt slot n w a os j) :
    threadVals slot n w a os j = [] := by
  unfold threadVals
  rw [List.flatMap_eq_nil_iff]
  intro o ho
  rw [List.flatMap_eq_nil_iff]
  intro l hl
  unfold laneVals rowVals
  by_cases hm : o.mask l = true
  · rw [if_pos hm, if_neg fun hc => h ⟨o, ho, l, List.mem_range.1 hl, hm, hc⟩]
  · rw [if_neg hm]

theorem kernelVals_none {slot : Nat → Nat → Nat} {n w : Nat} {threads : List (List (Op V))} {j a : Nat}
    (h : ∀ (b : Nat) (os : List (Op V)), threads[b]? = some os → ¬ UsesAt slot n w (a + b) os j) : kernelVals slot n w a threads j = [] := by
  unfold kernelVals
  rw [List.flatMap_eq_nil_iff]
  rintro ⟨os, b⟩ hx
  obtain ⟨h1, h2, h3⟩ := List.mem_zipIdx hx
  refine threadVals_nil ?_
  have := h (b - a) os (by rw [h3]; exact List.getElem?_eq_getElem _)
  rwa [show a + (b - a) = b by omega] at this

theorem kernelVals_one {slot : Nat → Nat → Nat} {n w : Nat} {threads : List (List (Op V))} {j a i : Nat} {os : List (Op V)} (hi : threads[i]? = some os)
    (h : ∀ (b : Nat) (qs : List (Op V)), threads[b]? = some qs → b ≠ i → ¬ UsesAt slot n w (a + b) qs j) :
    kernelVals slot n w a threads j = threadVals slot n w (a + i) os j := by
  induction threads generalizing a i with
  | nil => cases hi
  | cons qs pss ih =>
    have e : kernelVals slot n w a (qs :: pss) j = threadVals slot n w a qs j ++ kernelVals slot n w (a + 1) pss j := by
      simp [kernelVals, List.zipIdx_cons]
    rw [e]
    cases i with
    | zero =>
      cases hi
      rw [kernelVals_none, List.append_nil]
      · rfl
      · intro b rs hb
        have := h (b + 1) rs (by simpa using hb) (by omega)
        rwa [show a + (b + 1) = a + 1 + b by omega] at this
    | succ i =>
      rw [threadVals_nil (a := a) (h 0 qs rfl (by omega)), List.nil_append,
        ih (a := a + 1) (by simpa using hi) fun b rs hb hne => by
          have := h (b + 1) rs (by simpa using hb) (by omega)
          rwa [show a + (b + 1) = a + 1 + b by omega] at this,
        show a + 1 + i = a + (i + 1) by omega]

/-- Requirements on the lanes of a thread: aligned packets within the array, accepted in debug mode -/
def Fits (slot : Nat → Nat → Nat) (debug : Bool) (n w : Nat) (t : Target) (size' a : Nat) (os : List (Op V)) : Prop :=
  ∀ o ∈ os, ∀ l, l < w → o.mask l = true → n ∣ start slot n a o l ∧ start slot n a o l + n ≤ t.size ∧ (debug = true → start slot n a o l < size')

section
variable {op : Option (V → V → V)} {debug : Bool} {t : Target} {w k n size' : Nat} {slot : Nat → Nat → Nat}

theorem scatterPacket_wp (ht : t.OK) (hw : w = 2 ^ k) (hk : 1 ≤ k) (hs : t.shift ≤ 3)
    (hal : min 64 (w * 2 ^ t.shift) ∣ t.base) (hn : 0 < n) (hev : n % 2 = 0) (h31 : size' > 0x7fffffff ∨ t.size ≤ 2 ^ 31) {S : Set (Option Nat)} {a : Nat} {o : Op V}
    (hf : Fits slot debug n w t size' a [o]) (hS : ∀ l, l < w → o.mask l = true → ∀ e, e < n → some (t.addr (start slot n a o l + e)) ∈ S) (m : Option Nat → V) :
    wp S S (scatterPacket op debug w n ⟨t.base, t.shift, size'⟩ slot a o) m fun _ m' =>
      Post op t (fun j => (List.range w).flatMap (laneVals n o.mask (start slot n a o) (fun l e => o.val e l) j)) m m' := by
  have hf' : ∀ l, l < w → (o.mask l && (!debug || decide (start slot n a o l < size'))) = o.mask l := by
    intro l hl
    by_cases hm : o.mask l = true
    · rw [hm, Bool.true_and]
      cases debug with
      | false => rfl
      | true => exact decide_eq_true ((hf o (List.mem_singleton_self _) l hl hm).2.2 rfl)
    · rw [Bool.eq_false_iff.2 hm]; rfl
  have hm' : ∀ l, (o.mask l && (!debug || decide (start slot n a o l < size'))) = true → o.mask l = true := fun l h => (Bool.and_eq_true_iff.1 h).1
  unfold scatterPacket
  refine wp_mono (renderScatter_wp (ix := start slot n a o) (mask := fun l => o.mask l && (!debug || decide (start slot n a o l < size'))) (S := S) ht hw hk hs hal hn hev h31
    (fun l hl h => (hf o (List.mem_singleton_self _) l hl (hm' l h)).1) (fun l hl h => (hf o (List.mem_singleton_self _) l hl (hm' l h)).2.1)
    (fun l hl h => hS l hl (hm' l h)) o.val m) fun _ m' h => h.congr fun j => ?_
  refine List.flatMap_congr fun l hl => ?_
  unfold laneVals
  beta_reduce
  rw [hf' l (List.mem_range.1 hl)]

theorem scatterThread_wp (ht : t.OK) (hw : w = 2 ^ k) (hk : 1 ≤ k) (hs : t.shift ≤ 3)
    (hal : min 64 (w * 2 ^ t.shift) ∣ t.base) (hn : 0 < n) (hev : n % 2 = 0) (h31 : size' > 0x7fffffff ∨ t.size ≤ 2 ^ 31) {S : Set (Option Nat)} {a : Nat} {os : List (Op V)}
    (hf : Fits slot debug n w t size' a os) (hS : ∀ j, UsesAt slot n w a os j → some (t.addr j) ∈ S) (m : Option Nat → V) :
    wp S S (scatterThread op debug w n ⟨t.base, t.shift, size'⟩ slot a os) m fun _ m' => Post op t (threadVals slot n w a os) m m' := by
  induction os generalizing m with
  | nil => exact Post.refl op t m
  | cons o os ih =>
    unfold scatterThread
    rw [wp_bind]
    refine wp_mono (scatterPacket_wp ht hw hk hs hal hn hev h31 (S := S)
      (fun o' ho' => hf o' (by rw [List.mem_singleton.1 ho']; exact List.mem_cons_self ..))
      (fun l hl hm e he => hS _ ⟨o, List.mem_cons_self .., l, hl, hm, by omega, by omega⟩) m) fun _ m1 h1 => ?_
    refine wp_mono (ih (fun o' ho' => hf o' (List.mem_cons_of_mem _ ho'))
      (fun j ⟨o', h⟩ => hS j ⟨o', List.mem_cons_of_mem _ h.1, h.2⟩) m1) fun _ m2 h2 => (h1.trans h2).congr fun j => ?_
    rfl

theorem scatterKernel_spec (ht : t.OK) (hw : w = 2 ^ k) (hk : 1 ≤ k) (hs : t.shift ≤ 3)
    (hal : min 64 (w * 2 ^ t.shift) ∣ t.base) (hn : 0 < n) (hev : n % 2 = 0) (h31 : size' > 0x7fffffff ∨ t.size ≤ 2 ^ 31) {threads : List (List (Op V))}
    (hf : ∀ (a : Nat) (os : List (Op V)), threads[a]? = some os → Fits slot debug n w t size' a os)
    (hc : ∀ (a b : Nat) (os qs : List (Op V)) (j : Nat), threads[a]? = some os → threads[b]? = some qs → a ≠ b → UsesAt slot n w a os j → ¬ UsesAt slot n w b qs j)
    (m : Option Nat → V) :
    (scatterKernel op debug w n ⟨t.base, t.shift, size'⟩ slot threads).Safe (fun _ l => ∃ e, e < t.size ∧ l = some (t.addr e)) m ∧
    ∀ m', (scatterKernel op debug w n ⟨t.base, t.shift, size'⟩ slot threads).Ends m m' →
      (∀ j, m' (some (t.addr j)) = result op (m (some (t.addr j))) (kernelVals slot n w 0 threads j)) ∧
      ∀ l, (∀ j, some (t.addr j) ≠ l) → m' l = m l := by
  let F : Nat → Set (Option Nat) := fun i => {l | ∃ e, UsesAt slot n w i (threads[i]?.getD []) e ∧ l = some (t.addr e)}
  have hd : ∀ i j, i < threads.length → j < threads.length → i ≠ j → ∀ l, l ∈ F i → l ∉ F j ∧ l ∉ F j := by
    intro i j hi hj hne l hl
    have : l ∉ F j := by
      rintro ⟨e', h1, h2⟩
      obtain ⟨e, h3, h4⟩ := hl
      rw [h2] at h4
      rw [← t.addr_inj (Option.some.inj h4)] at h3
      rw [List.getElem?_eq_getElem hi] at h3
      rw [List.getElem?_eq_getElem hj] at h1
      exact hc i j _ _ e' (List.getElem?_eq_getElem hi) (List.getElem?_eq_getElem hj) hne h3 h1
    exact ⟨this, this⟩
  have hwp : ∀ i, i < threads.length → wp (F i) (F i) (scatterThread op debug w n ⟨t.base, t.shift, size'⟩ slot i (threads[i]?.getD [])) m
      fun _ m' => Post op t (threadVals slot n w i (threads[i]?.getD [])) m m' := by
    intro i hi
    have hi' := List.getElem?_eq_getElem hi
    refine scatterThread_wp (S := F i) ht hw hk hs hal hn hev h31 ?_ (fun j hj => ⟨j, hj, rfl⟩) m
    rw [hi']
    exact hf i _ hi'
  have hin : ∀ i, i < threads.length → ∀ l, l ∈ F i → ∃ e, e < t.size ∧ l = some (t.addr e) := by
    rintro i hi l ⟨e, ⟨o, ho, x, h1, h2, h3, h4⟩, h5⟩
    rw [List.getElem?_eq_getElem hi] at ho
    have := (hf i _ (List.getElem?_eq_getElem hi) o ho x h1 h2).2.1
    exact ⟨e, by omega, h5⟩
  refine ⟨phase_safe (Q := fun i m' => Post op t (threadVals slot n w i (threads[i]?.getD [])) m m') hd hwp hin hin, fun m' he => ?_⟩
  obtain ⟨h1, h2⟩ := phase_spec (Q := fun i m' => Post op t (threadVals slot n w i (threads[i]?.getD [])) m m') hd hwp he
  constructor
  · intro j
    by_cases hu : ∃ (a : Nat) (os : List (Op V)), threads[a]? = some os ∧ UsesAt slot n w a os j
    · obtain ⟨a, os, ha, hu⟩ := hu
      obtain ⟨mi, g1, g2, _⟩ := h1 a (List.getElem?_eq_some_iff.1 ha).1
      simp only [ha, Option.getD_some] at g1
      rw [g2 _ ⟨j, by rw [ha]; exact hu, rfl⟩, g1.1 j, kernelVals_one ha, Nat.zero_add]
      intro b qs hq hne hu'
      rw [Nat.zero_add] at hu'
      exact hc a b os qs j ha hq (fun e => hne e.symm) hu hu'
    · rw [kernelVals_none]
      · refine h2 _ ?_
        rintro i hi ⟨e, h3, h4⟩
        rw [List.getElem?_eq_getElem hi] at h3
        rw [← t.addr_inj (Option.some.inj h4)] at h3
        exact hu ⟨i, _, List.getElem?_eq_getElem hi, h3⟩
      · intro b qs hq hu'
        rw [Nat.zero_add] at hu'
        exact hu ⟨b, qs, hq, hu'⟩
  · intro l hl
    refine h2 l ?_
    rintro i hi ⟨e, _, h4⟩
    exact hl e h4.symm

end

end Verif.Packet
