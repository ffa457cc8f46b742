import Verif.Atomic.Props
import Verif.Par.Prog

/-!
# Scatter-reductions without conflicts between threads (C66)

`jitc_llvm_append_reduce_op_noconflict`: the code for the modes `NoConflicts` and `Expand`.  It uses plain
loads and stores, conflicts within a packet are resolved.
-/
namespace Verif.Atomic

open Verif.Par

variable {V : Type}

/-- llvm_scatter.cpp:421-459: the loop of `reduce_*_noconflict`, `n` lanes have not been visited; `k` is
what follows.  Locations are addresses; an access to `none` stands for a loop that does not end (see
`localLoop`).  For integers, `scalar_op` (lines 343-399) is the same operation as in the mode `Direct`. -/
def ncLoop (r : Red V) (shift : Nat) (ptr lo : Nat → Nat) (val : Nat → V) (w : Nat) (k : Prog (Option Nat) V Unit) :
    Nat → (Nat → Bool) → Prog (Option Nat) V Unit
  | 0, active => if anyLane w active then .write none r.id (.pure ()) else k
  | n + 1, active =>
    if anyLane w active then
      let index := w - (n + 1)
      if active index then
        let x := ptrlo shift (ptr index)
        .read (some (ptr index)) fun before =>
          .write (some (ptr index)) (r.op before (redOut r lo val w x))
            (ncLoop r shift ptr lo val w k n fun j => active j && decide (x ≠ lo j))
      else ncLoop r shift ptr lo val w k n active
    else k

/-- llvm_scatter.cpp:327-485 `jitc_llvm_append_reduce_op_noconflict` -/
def noconf (r : Red V) (t : Target) (w : Nat) (p : Packet V) (k : Prog (Option Nat) V Unit) : Prog (Option Nat) V Unit :=
  ncLoop r t.shift (t.ptr p) (fun i => if p.mask i then ptrlo t.shift (t.ptr p i) else 0) p.val w k w
    fun i => r.ne r.id (p.val i) && p.mask i

/-- The packets of a thread -/
def ncThread (r : Red V) (t : Target) (w : Nat) : List (Packet V) → Prog (Option Nat) V Unit
  | [] => .pure ()
  | p :: ps => noconf r t w p (ncThread r t w ps)

/-- The threads of a kernel -/
def ncKernel (r : Red V) (t : Target) (w : Nat) (threads : List (List (Packet V))) : Phase (Option Nat) V :=
  (threads.length, fun a => ncThread r t w (threads[a]?.getD []))

/-! ### One thread -/

/-- The effect of a lane on the memory -/
def laneUpd (r : Red V) (t : Target) (p : Packet V) (m : Option Nat → V) (i : Nat) : Option Nat → V :=
  upd m (some (t.addr (p.index i))) (r.op (m (some (t.addr (p.index i)))) (p.val i))

theorem laneUpd_comm {r : Red V} (h : r.OK) (t : Target) (p : Packet V) (m : Option Nat → V) (i j : Nat) :
    laneUpd r t p (laneUpd r t p m i) j = laneUpd r t p (laneUpd r t p m j) i := by
  funext l
  unfold laneUpd upd
  by_cases e : t.addr (p.index i) = t.addr (p.index j)
  · simp only [e, if_true]
    split
    · rw [h.assoc, h.comm (p.val i), ← h.assoc]
    · rfl
  · have e' : ¬ t.addr (p.index j) = t.addr (p.index i) := fun x => e x.symm
    simp only [Option.some.injEq, e, e', if_false]
    by_cases h1 : l = some (t.addr (p.index j))
    · subst h1
      simp only [if_true, Option.some.injEq, e', if_false]
    · simp only [h1, if_false]

theorem laneUpd_group (r : Red V) (t : Target) (p : Packet V) (j : Nat) (is : List Nat) (h : ∀ i ∈ is, p.index i = j) (m : Option Nat → V) :
    is.foldl (laneUpd r t p) m = upd m (some (t.addr j)) (is.foldl (fun acc i => r.op acc (p.val i)) (m (some (t.addr j)))) := by
  induction is generalizing m with
  | nil =>
    funext l
    simp only [List.foldl_nil, upd]
    split
    · rename_i e; rw [e]
    · rfl
  | cons i is ih =>
    rw [List.foldl_cons, ih (fun x hx => h x (List.mem_cons_of_mem _ hx)), List.foldl_cons]
    have hi := h i (List.mem_cons_self ..)
    funext l
    simp only [laneUpd, upd, hi, if_true]
    split <;> rfl

theorem laneUpd_idle {r : Red V} (h : r.OK) (t : Target) (p : Packet V) (is : List Nat)
    (hn : ∀ i ∈ is, r.ne r.id (p.val i) = false) (m : Option Nat → V) : is.foldl (laneUpd r t p) m = m := by
  induction is generalizing m with
  | nil => rfl
  | cons i is ih =>
    rw [List.foldl_cons]
    have e : laneUpd r t p m i = m := by
      funext l
      unfold laneUpd upd
      rw [h.ne _ (hn i (List.mem_cons_self ..))]
      split
      · rename_i e; rw [e]
      · rfl
    rw [e]
    exact ih (fun x hx => hn x (List.mem_cons_of_mem _ hx)) m

theorem ncLoop_wp {r : Red V} (h : r.OK) {t : Target} (ht : t.OK) (hz : t.NoZero) {p : Packet V} {w : Nat}
    (hi : ∀ i, i < w → p.mask i = true → p.index i < t.size) {S : Set (Option Nat)}
    (hS : ∀ i, i < w → p.mask i = true → some (t.addr (p.index i)) ∈ S) {k : Prog (Option Nat) V Unit} {Q : Unit → (Option Nat → V) → Prop}
    (n : Nat) (hn : n ≤ w) (active rem : Nat → Bool) (m : Option Nat → V)
    (hrem : ∀ i, i < w → rem i = true → p.mask i = true)
    (hcl : ∀ i j, i < w → j < w → rem i = true → p.mask j = true → p.index j = p.index i → rem j = true)
    (hact : ∀ i, i < w → active i = (r.ne r.id (p.val i) && rem i))
    (hdone : ∀ i, i < w - n → active i = false)
    (hk : wp S S k (((List.range w).filter rem).foldl (laneUpd r t p) m) Q) :
    wp S S (ncLoop r t.shift (t.ptr p) (fun i => if p.mask i then ptrlo t.shift (t.ptr p i) else 0) p.val w k n active) m Q := by
  have hpure : ∀ (active rem : Nat → Bool) (m : Option Nat → V), (∀ i, i < w → active i = (r.ne r.id (p.val i) && rem i)) →
      anyLane w active = false → ((List.range w).filter rem).foldl (laneUpd r t p) m = m := by
    intro active rem m hact hany
    refine laneUpd_idle h t p _ (fun i hi' => ?_) m
    obtain ⟨h1, h2⟩ := List.mem_filter.1 hi'
    have hw := List.mem_range.1 h1
    have h3 := anyLane_false hany hw
    rwa [hact i hw, h2, Bool.and_true] at h3
  induction n generalizing active rem m with
  | zero =>
    have hany : anyLane w active = false := by
      unfold anyLane
      rw [List.any_eq_false]
      intro i hi'
      rw [hdone i (by have := List.mem_range.1 hi'; omega)]
      simp
    unfold ncLoop
    rw [hany]
    rw [hpure active rem m hact hany] at hk
    exact hk
  | succ n ih =>
    unfold ncLoop
    cases hany : anyLane w active with
    | false =>
      rw [hpure active rem m hact hany] at hk
      exact hk
    | true =>
      simp only [if_true]
      have hw : w - (n + 1) < w := by omega
      by_cases he : active (w - (n + 1)) = true
      · rw [if_pos he]
        have hr : rem (w - (n + 1)) = true := by
          rw [hact _ hw] at he
          exact (Bool.and_eq_true_iff.1 he).2
        have hm := hrem _ hw hr
        let g : Nat → Bool := fun j => p.mask j && decide (p.index j = p.index (w - (n + 1)))
        have hgr : ∀ i ∈ List.range w, g i = true → rem i = true := by
          intro i hi' hg
          obtain ⟨g1, g2⟩ := Bool.and_eq_true_iff.1 hg
          exact hcl _ i hw (List.mem_range.1 hi') hr g1 (of_decide_eq_true g2)
        have hlo : ∀ j, j < w → (ptrlo t.shift (t.ptr p (w - (n + 1))) ≠
            (if p.mask j then ptrlo t.shift (t.ptr p j) else 0) ↔ ¬ g j = true) := by
          intro j hj
          rw [ptr_addr ht (hi _ hw hm)]
          by_cases hmj : p.mask j = true
          · rw [if_pos hmj, ptr_addr ht (hi j hj hmj)]
            simp only [g, hmj, Bool.true_and, decide_eq_true_eq, ne_eq]
            constructor
            · intro h1 h2; rw [h2] at h1; exact h1 rfl
            · intro h1 h2; exact h1 (ptrlo_inj ht (hi _ hw hm) (hi j hj hmj) h2).symm
          · rw [if_neg hmj]
            simp only [g, hmj, Bool.false_and, Bool.false_eq_true, not_false_eq_true, iff_true]
            exact ptrlo_ne_zero ht hz (hi _ hw hm)
        have hperm := filter_split (List.range w) rem g hgr
        rw [List.Perm.foldl_eq' hperm (fun x _ y _ z => laneUpd_comm h t p z x y), List.foldl_append,
          laneUpd_group r t p (p.index (w - (n + 1))) _ (fun i hi' =>
            of_decide_eq_true (Bool.and_eq_true_iff.1 (List.mem_filter.1 hi').2).2)] at hk
        have hadr := ptr_addr ht (hi _ hw hm)
        have hmem : some (t.ptr p (w - (n + 1))) ∈ S := by rw [hadr]; exact hS _ hw hm
        refine ⟨hmem, hmem, ih (by omega) _ (fun i => rem i && !g i) _ ?_ ?_ ?_ ?_ ?_⟩
        · intro i hi' h1
          exact hrem i hi' (Bool.and_eq_true_iff.1 h1).1
        · intro i j hi' hj h1 h2 h3
          obtain ⟨g1, g2⟩ := Bool.and_eq_true_iff.1 h1
          refine Bool.and_eq_true_iff.2 ⟨hcl i j hi' hj g1 h2 h3, ?_⟩
          have hmi := hrem i hi' g1
          simp only [g, hmi, Bool.true_and, h2, h3] at g2 ⊢
          exact g2
        · intro i hi'
          rw [hact i hi', Bool.and_assoc]
          congr 1
          congr 1
          have := hlo i hi'
          by_cases e : g i = true
          · rw [e, decide_eq_false (fun hc => this.1 hc e)]; rfl
          · rw [decide_eq_true (this.2 e)]
            simp only [Bool.not_eq_true] at e
            rw [e]; rfl
        · intro i hi'
          by_cases e : i = w - (n + 1)
          · subst e
            have hgi : g (w - (n + 1)) = true := by simp only [g, hm, Bool.true_and, decide_true]
            rw [decide_eq_false (fun hc => (hlo _ hw).1 hc hgi), Bool.and_false]
          · rw [hdone i (by omega), Bool.false_and]
        · have e : r.op (m (some (t.ptr p (w - (n + 1))))) (redOut r (fun i => if p.mask i then ptrlo t.shift (t.ptr p i) else 0) p.val w
              (ptrlo t.shift (t.ptr p (w - (n + 1))))) =
              ((List.range w).filter g).foldl (fun acc i => r.op acc (p.val i)) (m (some (t.addr (p.index (w - (n + 1)))))) := by
            rw [hadr, foldl_op h, redOut, ← foldl_filter_id h]
            congr 1
            refine List.foldl_ext _ _ _ fun acc j hj => ?_
            congr 1
            have := hlo j (List.mem_range.1 hj)
            rw [hadr] at this
            by_cases e : g j = true
            · rw [if_pos e, if_neg (fun hc => this.1 hc e)]
            · rw [if_neg e, if_pos (this.2 e)]
          rw [e, hadr]
          exact hk
      · rw [if_neg he]
        refine ih (by omega) active rem m hrem hcl hact ?_ hk
        intro i hi'
        by_cases e : i = w - (n + 1)
        · subst e; simpa using he
        · exact hdone i (by omega)

/-- The memory after the active lanes of a packet -/
def packetMem (r : Red V) (t : Target) (w : Nat) (m : Option Nat → V) (p : Packet V) : Option Nat → V :=
  ((List.range w).filter p.mask).foldl (laneUpd r t p) m

theorem ncThread_wp {r : Red V} (h : r.OK) {t : Target} (ht : t.OK) (hz : t.NoZero) {w : Nat} {S : Set (Option Nat)} (ps : List (Packet V))
    (hi : ∀ p ∈ ps, ∀ i, i < w → p.mask i = true → p.index i < t.size)
    (hS : ∀ p ∈ ps, ∀ i, i < w → p.mask i = true → some (t.addr (p.index i)) ∈ S) (m : Option Nat → V) :
    wp S S (ncThread r t w ps) m fun _ m' => m' = ps.foldl (packetMem r t w) m := by
  induction ps generalizing m with
  | nil => rfl
  | cons p ps ih =>
    refine ncLoop_wp h ht hz (hi p (List.mem_cons_self ..)) (hS p (List.mem_cons_self ..)) w (Nat.le_refl _) _ p.mask m
      (fun _ _ h => h) (fun _ _ _ _ _ h _ => h) (fun _ _ => rfl) (fun i hi => absurd hi (by omega)) ?_
    exact ih (fun q hq => hi q (List.mem_cons_of_mem _ hq)) (fun q hq => hS q (List.mem_cons_of_mem _ hq)) _

theorem laneUpd_at (r : Red V) (t : Target) (p : Packet V) (is : List Nat) (m : Option Nat → V) (j : Nat) :
    is.foldl (laneUpd r t p) m (some (t.addr j)) =
      ((is.filter fun i => decide (p.index i = j)).map p.val).foldl r.op (m (some (t.addr j))) := by
  induction is generalizing m with
  | nil => rfl
  | cons i is ih =>
    rw [List.foldl_cons, ih, List.filter_cons]
    by_cases e : p.index i = j
    · subst e
      simp only [decide_true, if_true, List.map_cons, List.foldl_cons, laneUpd, upd]
    · simp only [decide_eq_false e, Bool.false_eq_true, if_false]
      congr 1
      unfold laneUpd upd
      rw [if_neg]
      intro hc
      exact e (t.addr_inj (Option.some.inj hc)).symm

theorem thread_at (r : Red V) (t : Target) (w : Nat) (ps : List (Packet V)) (m : Option Nat → V) (j : Nat) :
    ps.foldl (packetMem r t w) m (some (t.addr j)) = (contributions w [ps] j).foldl r.op (m (some (t.addr j))) := by
  simp only [contributions, List.flatMap_cons, List.flatMap_nil, List.append_nil]
  induction ps generalizing m with
  | nil => rfl
  | cons p ps ih =>
    rw [List.foldl_cons, ih, List.flatMap_cons, List.foldl_append, packetMem, laneUpd_at, List.filter_filter]
    congr 4
    funext i
    rw [Bool.and_comm]

/-! ### Threads -/

/-- Entry `j` is used by thread `ps`. -/
def Uses (w : Nat) (ps : List (Packet V)) (j : Nat) : Prop := ∃ p ∈ ps, ∃ i, i < w ∧ p.mask i = true ∧ p.index i = j

/-- Different threads use different entries. -/
def NoConflicts (w : Nat) (threads : List (List (Packet V))) : Prop :=
  ∀ (a b : Nat) (ps qs : List (Packet V)) (j : Nat), threads[a]? = some ps → threads[b]? = some qs → a ≠ b → Uses w ps j → ¬ Uses w qs j

theorem contributions_nil {w : Nat} {ps : List (Packet V)} {j : Nat} (h : ¬ Uses w ps j) : contributions w [ps] j = [] := by
  simp only [contributions, List.flatMap_cons, List.flatMap_nil, List.append_nil, List.flatMap_eq_nil_iff, List.map_eq_nil_iff,
    List.filter_eq_nil_iff]
  intro p hp i hi hc
  obtain ⟨h1, h2⟩ := Bool.and_eq_true_iff.1 hc
  exact h ⟨p, hp, i, List.mem_range.1 hi, h1, of_decide_eq_true h2⟩

theorem contributions_cons (w : Nat) (ps : List (Packet V)) (pss : List (List (Packet V))) (j : Nat) :
    contributions w (ps :: pss) j = contributions w [ps] j ++ contributions w pss j := by
  simp [contributions]

theorem contributions_all_nil {w : Nat} {pss : List (List (Packet V))} {j : Nat} (h : ∀ ps ∈ pss, ¬ Uses w ps j) :
    contributions w pss j = [] := by
  induction pss with
  | nil => rfl
  | cons ps pss ih =>
    rw [contributions_cons, contributions_nil (h ps (List.mem_cons_self ..)), ih fun qs hq => h qs (List.mem_cons_of_mem _ hq)]
    rfl

/-- Only one thread contributes to an entry. -/
theorem contributions_one {w : Nat} {pss : List (List (Packet V))} {j a : Nat} {ps : List (Packet V)} (ha : pss[a]? = some ps)
    (h : ∀ b qs, pss[b]? = some qs → b ≠ a → ¬ Uses w qs j) : contributions w pss j = contributions w [ps] j := by
  induction pss generalizing a with
  | nil => cases ha
  | cons qs pss ih =>
    rw [contributions_cons]
    cases a with
    | zero =>
      cases ha
      rw [contributions_all_nil (pss := pss) ?_, List.append_nil]
      intro rs hr
      obtain ⟨b, hb⟩ := List.mem_iff_getElem?.1 hr
      exact h (b + 1) rs (by simpa using hb) (by omega)
    | succ a =>
      rw [contributions_nil (h 0 qs rfl (by omega)), List.nil_append]
      exact ih (by simpa using ha) fun b rs hb hne => h (b + 1) rs (by simpa using hb) (by omega)

theorem noconf_phase {r : Red V} (h : r.OK) {t : Target} (ht : t.OK) (hz : t.NoZero) {w : Nat} {threads : List (List (Packet V))}
    (hb : InBounds w t threads) (hc : NoConflicts w threads) (m : Option Nat → V) :
    (∀ i j, i < threads.length → j < threads.length → i ≠ j → ∀ l,
      l ∈ {l : Option Nat | ∃ e, Uses w (threads[i]?.getD []) e ∧ l = some (t.addr e)} →
      l ∉ {l : Option Nat | ∃ e, Uses w (threads[j]?.getD []) e ∧ l = some (t.addr e)} ∧
      l ∉ {l : Option Nat | ∃ e, Uses w (threads[j]?.getD []) e ∧ l = some (t.addr e)}) ∧
    ∀ i, i < threads.length → wp {l : Option Nat | ∃ e, Uses w (threads[i]?.getD []) e ∧ l = some (t.addr e)}
      {l : Option Nat | ∃ e, Uses w (threads[i]?.getD []) e ∧ l = some (t.addr e)} (ncThread r t w (threads[i]?.getD [])) m
      fun _ m' => m' = (threads[i]?.getD []).foldl (packetMem r t w) m := by
  constructor
  · intro i j hi hj hne l hl
    have : l ∉ {l : Option Nat | ∃ e, Uses w (threads[j]?.getD []) e ∧ l = some (t.addr e)} := by
      rintro ⟨e', h1, h2⟩
      obtain ⟨e, h3, h4⟩ := hl
      rw [h2] at h4
      rw [← t.addr_inj (Option.some.inj h4)] at h3
      rw [List.getElem?_eq_getElem hi] at h3
      rw [List.getElem?_eq_getElem hj] at h1
      exact hc i j _ _ e' (List.getElem?_eq_getElem hi) (List.getElem?_eq_getElem hj) hne h3 h1
    exact ⟨this, this⟩
  · intro i hi
    rw [List.getElem?_eq_getElem hi]
    refine ncThread_wp h ht hz _ (fun p hp => hb _ (List.getElem_mem hi) p hp) ?_ m
    intro p hp i hi' hm
    exact ⟨p.index i, ⟨p, hp, i, hi', hm, rfl⟩, rfl⟩

theorem noconf_spec {r : Red V} (h : r.OK) {t : Target} (ht : t.OK) (hz : t.NoZero) {w : Nat} {threads : List (List (Packet V))}
    (hb : InBounds w t threads) (hc : NoConflicts w threads) (m : Option Nat → V) :
    (ncKernel r t w threads).Safe (fun _ l => ∃ e, e < t.size ∧ l = some (t.addr e)) m ∧
    ∀ m', (ncKernel r t w threads).Ends m m' →
      (∀ j, m' (some (t.addr j)) = (contributions w threads j).foldl r.op (m (some (t.addr j)))) ∧
      ∀ l, (∀ j, some (t.addr j) ≠ l) → m' l = m l := by
  obtain ⟨hd, hw⟩ := noconf_phase h ht hz hb hc m
  have hin : ∀ i, i < threads.length → ∀ l, l ∈ {l : Option Nat | ∃ e, Uses w (threads[i]?.getD []) e ∧ l = some (t.addr e)} →
      ∃ e, e < t.size ∧ l = some (t.addr e) := by
    rintro i hi l ⟨e, ⟨p, hp, x, h1, h2, h3⟩, h4⟩
    rw [List.getElem?_eq_getElem hi] at hp
    exact ⟨e, h3 ▸ hb _ (List.getElem_mem hi) p hp x h1 h2, h4⟩
  refine ⟨phase_safe (Q := fun i m' => m' = (threads[i]?.getD []).foldl (packetMem r t w) m) hd hw hin hin, fun m' he => ?_⟩
  obtain ⟨h1, h2⟩ := phase_spec (Q := fun i m' => m' = (threads[i]?.getD []).foldl (packetMem r t w) m) hd hw he
  constructor
  · intro j
    by_cases hu : ∃ (a : Nat) (ps : List (Packet V)), threads[a]? = some ps ∧ Uses w ps j
    · obtain ⟨a, ps, ha, hu⟩ := hu
      have hal := (List.getElem?_eq_some_iff.1 ha).1
      obtain ⟨mi, g1, g2, _⟩ := h1 a hal
      simp only [ha, Option.getD_some] at g1 g2
      rw [g2 _ ⟨j, hu, rfl⟩, g1, thread_at, contributions_one ha]
      intro b qs hq hne hu'
      exact hc a b ps qs j ha hq (fun e => hne e.symm) hu hu'
    · rw [contributions_all_nil]
      · refine h2 _ ?_
        rintro i hi ⟨e, h3, h4⟩
        rw [List.getElem?_eq_getElem hi] at h3
        rw [← t.addr_inj (Option.some.inj h4)] at h3
        exact hu ⟨i, _, List.getElem?_eq_getElem hi, h3⟩
      · intro ps hps hu'
        obtain ⟨a, ha⟩ := List.mem_iff_getElem?.1 hps
        exact hu ⟨a, ps, ha, hu'⟩
  · intro l hl
    refine h2 l ?_
    rintro i hi ⟨e, _, h4⟩
    exact hl e h4.symm

/-- **C66** (modes `NoConflicts` and `Expand`): the same as in the mode `Local` if different threads use different
entries; all accesses are accesses to entries of the array. -/
theorem C66_reduce_noconflict_partial {n : Nat} {signed : Bool} {op : IntOp} {t : Target} (ht : t.OK) (hz : t.NoZero) {w : Nat}
    {threads : List (List (Packet (BitVec n)))} (hb : InBounds w t threads) (hc : NoConflicts w threads) (m : Option Nat → BitVec n) :
    (ncKernel (intRed n signed op) t w threads).Safe (fun _ l => ∃ e, e < t.size ∧ l = some (t.addr e)) m ∧
    ∀ m', (ncKernel (intRed n signed op) t w threads).Ends m m' →
      (∀ j, m' (some (t.addr j)) = (contributions w threads j).foldl (op.eval signed) (m (some (t.addr j)))) ∧
      ∀ l, (∀ j, some (t.addr j) ≠ l) → m' l = m l := by
  have := noconf_spec (intRed_ok n signed op) ht hz hb hc m
  rwa [show (intRed n signed op).op = op.eval signed from intOp_eval signed op] at this

/-- Two threads; the first one uses entry 3 twice, the second one entries 4 and 5. -/
example : ∃ (t : Target) (threads : List (List (Packet (BitVec 32)))),
    t.OK ∧ t.NoZero ∧ InBounds 2 t threads ∧ NoConflicts 2 threads ∧ contributions 2 threads 3 = [10, 11] ∧ contributions 2 threads 4 = [20] := by
  let p : Packet (BitVec 32) := ⟨fun _ => 3, fun i => 10 + BitVec.ofNat 32 i, fun _ => true⟩
  let q : Packet (BitVec 32) := ⟨fun i => 4 + i, fun _ => 20, fun _ => true⟩
  refine ⟨⟨4096, 2, 8⟩, [[p], [q]], ⟨by decide, by decide, by decide, by decide⟩, ?_, ?_, ?_, rfl, rfl⟩
  · intro j hj hd
    have hj' : j < 8 := hj
    obtain ⟨c, hc⟩ := hd
    simp only [Target.addr] at hc
    omega
  · intro ps hps pk hpk i hi hm
    simp only [List.mem_cons, List.not_mem_nil, or_false] at hps
    rcases hps with rfl | rfl
    · rw [List.mem_singleton.1 hpk]; exact (by decide : 3 < 8)
    · rw [List.mem_singleton.1 hpk]
      change 4 + i < 8
      omega
  · have hp : ∀ j, Uses 2 [p] j → j = 3 := by
      rintro j ⟨x, hx, i, _, _, h⟩
      rw [List.mem_singleton.1 hx] at h
      exact h.symm
    have hq : ∀ j, Uses 2 [q] j → 4 ≤ j := by
      rintro j ⟨x, hx, i, _, _, h⟩
      rw [List.mem_singleton.1 hx] at h
      change 4 + i = j at h
      omega
    intro a b ps qs j ha hb hne h1 h2
    have ha' := (List.getElem?_eq_some_iff.1 ha).1
    have hb' := (List.getElem?_eq_some_iff.1 hb).1
    simp only [List.length_cons, List.length_nil] at ha' hb'
    match a, b, ha', hb', hne with
    | 0, 1, _, _, _ => cases ha; cases hb; have := hp j h1; have := hq j h2; omega
    | 1, 0, _, _, _ => cases ha; cases hb; have := hp j h2; have := hq j h1; omega
    | 0, 0, _, _, hne => exact hne rfl
    | 1, 1, _, _, hne => exact hne rfl

end Verif.Atomic
