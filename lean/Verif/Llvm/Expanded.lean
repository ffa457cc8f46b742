import Verif.Llvm.Split

/-!
# C27: scatter-reductions to expanded arrays

`jitc_var_expand` / `jitc_var_reduce_expanded` (`/repo/src/var.cpp:2866-2962`),
`jitc_llvm_expand_replication_factor` (`/repo/src/llvm_core.cpp:556-563`), the index computation of
scatter-reductions (`/repo/src/op.cpp:2858-2891`) and `LLVMThreadState::reduce_expanded`
(`/repo/src/llvm_ts.cpp:1008-1105`).
-/
namespace Verif.Llvm

open Verif.Par

variable {T A : Type}

/-! ### Model -/

/-- `jitc_llvm_expand_replication_factor`: number of workers, copies per worker (llvm_core.cpp:556-563) -/
def expandFactor (workers size tsize : Nat) : Nat × Nat := (workers, if size = 1 then 64 / tsize else 1)

/-- The combination of two elements (llvm_ts.cpp:1034-1058); half precision numbers are converted -/
def Red.opT (r : Red T A) (x y : T) : T := r.ofV (r.op (r.toV x) (r.toV y))

/-- Size and contents of the expanded array, `none` if an exception is raised (var.cpp:2889-2919, for
more than one worker and an array that is not expanded yet).  The number of bytes to be copied is
computed with 32 bits (line 2918).  Copying is skipped for literals equal to the identity (line 2914),
which does not make a difference. -/
def expandArray (workers tsize size : Nat) (ident : T) (src : Nat → T) : Option (Nat × (Nat → T)) :=
  if size * (expandFactor workers size tsize).2 * (expandFactor workers size tsize).1 > 0xffffffff then none
  else some (size * (expandFactor workers size tsize).2 * (expandFactor workers size tsize).1,
    fun i => if i < mul32 size tsize / tsize then src i else ident)

/-- `index_scale` (var.cpp:2884) -/
def indexScale (workers tsize size : Nat) : Nat := mul32 (expandFactor workers size tsize).2 size

/-- Element of the expanded array that thread `t` uses to accumulate values for `i` (op.cpp:2876-2888) -/
def slotOf (workers tsize size t i : Nat) : Nat := add32 (mul32 t (indexScale workers tsize size)) i

/-- An update: the thread that executes it, target index, value -/
structure Update (T : Type) where
  thread : Nat
  index : Nat
  value : T

/-- Updates in the order of execution.  Threads use disjoint parts of the array, hence updates of
different threads commute. -/
def runUpdates (r : Red T A) (workers tsize size : Nat) (s : Nat → T) (h : List (Update T)) : Nat → T :=
  h.foldl (fun s u k => if k = slotOf workers tsize size u.thread u.index then r.opT (s k) u.value else s k) s

/-- `ptr[i] = op(ptr[i], ptr[i + j * size])` (llvm_ts.cpp:1024, 1028) -/
def accStep (r : Red T A) (b i j size : Nat) : Prog Loc T Unit :=
  (Prog.get (b, i)).bind fun x => (Prog.get (b, i + j * size)).bind fun y => Prog.put (b, i) (r.opT x y)

/-- `reduce_expanded_impl` (llvm_ts.cpp:1010-1029).  (The indices do not wrap around, as the expanded
array has less than 2^32 elements, var.cpp:2897.) -/
def reduceExpandedRange (r : Red T A) (b start stop exp size : Nat) : Prog Loc T Unit :=
  (Prog.loop ((stop - start) / 128) () fun q _ =>
    forLt 1 exp fun j => forLt 0 128 fun k => accStep r b (start + q * 128 + k) j size).bind fun _ =>
  forLt (start + (stop - start) / 128 * 128) stop fun i => forLt 1 exp fun j => accStep r b i j size

/-- `jitc_var_reduce_expanded`, `LLVMThreadState::reduce_expanded` (var.cpp:2933-2962, llvm_ts.cpp:1081-1105) -/
def reduceExpanded (r : Red T A) (workers ideal tsize size b : Nat) : Phase Loc T :=
  (max 1 (poolSplit workers ideal size).2, fun index =>
    reduceExpandedRange r b (splitRange' (poolSplit workers ideal size).1 size index).1 (splitRange' (poolSplit workers ideal size).1 size index).2
      (mul32 (expandFactor workers size tsize).2 (expandFactor workers size tsize).1) size)

/-! ### Reduction of a range -/

section
variable {r : Red T A} {b size exp : Nat} {m : Loc → T}

/-- Combination of the first copies of element `i` -/
def comb (r : Red T A) (size : Nat) (f : Nat → T) (i : Nat) : Nat → T
  | 0 => f i
  | 1 => f i
  | j + 2 => r.opT (comb r size f i (j + 1)) (f (i + (j + 1) * size))

theorem comb_succ (f : Nat → T) (i : Nat) {j : Nat} (h : 1 ≤ j) : comb r size f i (j + 1) = r.opT (comb r size f i j) (f (i + j * size)) := by
  obtain ⟨k, rfl⟩ : ∃ k, j = k + 1 := ⟨j - 1, by omega⟩
  rfl

/-- State during the reduction: `g i` copies of element `i` have been combined. -/
def CSt (r : Red T A) (b size start stop : Nat) (m : Loc → T) (g : Nat → Nat) (m' : Loc → T) : Prop :=
  (∀ i, start ≤ i → i < stop → m' (b, i) = comb r size (fun k => m (b, k)) i (g i)) ∧
  ∀ l : Loc, ¬ (l.1 = b ∧ start ≤ l.2 ∧ l.2 < stop) → m' l = m l

theorem CSt.congr {start stop : Nat} {g g' : Nat → Nat} {m' : Loc → T} (h : CSt r b size start stop m g m') (hg : ∀ i, start ≤ i → i < stop → g i = g' i) :
    CSt r b size start stop m g' m' := ⟨fun i h1 h2 => by rw [h.1 i h1 h2, hg i h1 h2], h.2⟩

/-- Locations read by the reduction of `start .. stop-1` -/
def expR (b start stop exp size : Nat) : Set Loc := {l | l.1 = b ∧ ∃ i j, start ≤ i ∧ i < stop ∧ j < exp ∧ l.2 = i + j * size}

theorem accStep_wp {start stop i j : Nat} {g : Nat → Nat} {m' : Loc → T} (hst : stop ≤ size) (h1 : start ≤ i) (h2 : i < stop) (hj : 1 ≤ j) (hje : j < exp)
    (hg : g i = j) (h : CSt r b size start stop m g m') :
    wp (expR b start stop exp size) (cells b start stop) (accStep r b i j size) m' (fun _ => CSt r b size start stop m (fun k => if k = i then j + 1 else g k)) := by
  unfold accStep
  rw [wp_bind]
  refine wp_get ⟨rfl, i, 0, h1, h2, by omega, by simp⟩ ?_
  rw [wp_bind]
  refine wp_get ⟨rfl, i, j, h1, h2, hje, rfl⟩ ?_
  refine wp_put ⟨rfl, h1, h2⟩ ⟨fun k hk1 hk2 => ?_, fun l hl => ?_⟩
  · by_cases e : k = i
    · subst e
      simp only [upd, if_true]
      have hfar : 1 * size ≤ j * size := Nat.mul_le_mul_right _ hj
      rw [h.1 k hk1 hk2, hg, comb_succ _ _ hj, h.2 (b, k + j * size) (by simp only; omega)]
    · have hn : (b, k) ≠ (b, i) := fun h => e (congrArg Prod.snd h)
      simp only [upd, if_neg hn, if_neg e]
      exact h.1 k hk1 hk2
  · have hn : l ≠ (b, i) := fun h => hl (by rw [h]; exact ⟨rfl, h1, h2⟩)
    simp only [upd, if_neg hn]
    exact h.2 l hl

/-- A block of `c` elements that starts at `p` -/
theorem expBlock_wp {start stop p c : Nat} {m1 : Loc → T} (hst : stop ≤ size) (he : 1 ≤ exp) (hp : start ≤ p) (hc : p + c ≤ stop)
    (h1 : CSt r b size start stop m (fun i => if i < p then exp else 1) m1) :
    wp (expR b start stop exp size) (cells b start stop) (forLt 1 exp fun j => forLt 0 c fun k => accStep r b (p + k) j size) m1
      (fun _ => CSt r b size start stop m (fun i => if i < p + c then exp else 1)) := by
  unfold forLt
  refine wp_mono (wp_loop (fun k _ => CSt r b size start stop m (fun i => if i < p then exp else if i < p + c then 1 + k else 1)) ?_ ?_) ?_
  · refine h1.congr (fun i _ _ => ?_)
    split
    · rfl
    · split <;> rfl
  · rintro jj _ m2 hjj h2
    refine wp_mono (wp_loop (fun k _ => CSt r b size start stop m (fun i => if i < p then exp
      else if i < p + k then 1 + (jj + 1) else if i < p + c then 1 + jj else 1)) ?_ ?_) ?_
    · refine h2.congr (fun i _ _ => ?_)
      split_ifs <;> omega
    · rintro k _ m3 hk h3
      refine wp_mono (accStep_wp (j := 1 + jj) hst (by omega) (by omega) (by omega) (by omega) ?_ h3) ?_
      · rw [if_neg (by omega), if_neg (by omega), if_pos (by omega)]
      · intro _ m4 h4
        refine h4.congr (fun i _ _ => ?_)
        split_ifs <;> omega
    · intro _ m3 h3
      refine h3.congr (fun i _ _ => ?_)
      split_ifs <;> omega
  · intro _ m2 h2
    refine h2.congr (fun i _ _ => ?_)
    split_ifs <;> omega

/-- A single element -/
theorem expElem_wp {start stop p : Nat} {m1 : Loc → T} (hst : stop ≤ size) (he : 1 ≤ exp) (hp : start ≤ p) (hc : p < stop)
    (h1 : CSt r b size start stop m (fun i => if i < p then exp else 1) m1) :
    wp (expR b start stop exp size) (cells b start stop) (forLt 1 exp fun j => accStep r b p j size) m1
      (fun _ => CSt r b size start stop m (fun i => if i < p + 1 then exp else 1)) := by
  unfold forLt
  refine wp_mono (wp_loop (fun jj _ => CSt r b size start stop m (fun i => if i < p then exp else if i = p then 1 + jj else 1)) ?_ ?_) ?_
  · refine h1.congr (fun i _ _ => ?_)
    split
    · rfl
    · split <;> rfl
  · rintro jj _ m3 hjj h3
    refine wp_mono (accStep_wp (j := 1 + jj) hst (by omega) (by omega) (by omega) (by omega) ?_ h3) ?_
    · rw [if_neg (by omega), if_pos rfl]
    · intro _ m4 h4
      refine h4.congr (fun i _ _ => ?_)
      by_cases e : i = p
      · rw [if_pos e, if_neg (by omega), if_pos e]; omega
      · rw [if_neg e, if_neg e]
        by_cases e1 : i < p
        · rw [if_pos e1, if_pos e1]
        · rw [if_neg e1, if_neg e1, if_neg e]
  · intro _ m3 h3
    refine h3.congr (fun i _ _ => ?_)
    by_cases e1 : i < p
    · rw [if_pos e1, if_pos (by omega)]
    · rw [if_neg e1]
      by_cases e2 : i = p
      · rw [if_pos e2, if_pos (by omega)]; omega
      · rw [if_neg e2, if_neg (by omega)]

theorem reduceExpandedRange_wp {start stop : Nat} (hle : start ≤ stop) (hst : stop ≤ size) (he : 1 ≤ exp) :
    wp (expR b start stop exp size) (cells b start stop) (reduceExpandedRange r b start stop exp size) m
      (fun _ => CSt r b size start stop m (fun _ => exp)) := by
  unfold reduceExpandedRange
  have hdm := Nat.div_add_mod (stop - start) 128
  generalize hc : (128 : Nat) = c at *
  rw [wp_bind]
  have hmul : ∀ q, q < (stop - start) / c → start + q * c + c ≤ stop := by
    intro q hq
    have : (q + 1) * c ≤ (stop - start) / c * c := Nat.mul_le_mul_right _ hq
    rw [Nat.add_mul, Nat.mul_comm _ c, Nat.mul_comm ((stop - start) / c) c, Nat.mul_comm c q] at this
    omega
  refine wp_mono (wp_loop (fun q _ => CSt r b size start stop m (fun i => if i < start + q * c then exp else 1)) ?_ ?_) ?_
  · refine ⟨fun i h1 h2 => ?_, fun _ _ => rfl⟩
    show _ = comb r size _ i (if i < start + 0 * c then exp else 1)
    rw [if_neg (by omega)]
    rfl
  · rintro q _ m1 hq h1
    have := hmul q hq
    refine wp_mono (expBlock_wp hst he (by omega) (by omega) h1) ?_
    intro _ m2 h2
    refine h2.congr (fun i _ _ => ?_)
    rw [Nat.add_mul, Nat.one_mul, Nat.add_assoc]
  · intro _ m1 h1
    have hp2 : start + (stop - start) / c * c ≤ stop := by rw [Nat.mul_comm]; omega
    have hp1 : start ≤ start + (stop - start) / c * c := Nat.le_add_right _ _
    generalize start + (stop - start) / c * c = p at *
    rw [forLt.eq_1]
    refine wp_mono (wp_loop (fun k _ => CSt r b size start stop m (fun i => if i < p + k then exp else 1)) ?_ ?_) ?_
    · exact h1
    · rintro k _ m2 hk h2
      exact expElem_wp hst he (by omega) (by omega) h2
    · intro _ m2 h2
      refine h2.congr (fun i _ hi => ?_)
      rw [if_pos (by omega)]

end

/-- The collapse of an expanded array, for all interleavings -/
theorem reduceExpanded_spec (r : Red T A) (workers ideal tsize size b : Nat) (h : SplitOk ideal size)
    (hexp : 1 ≤ mul32 (expandFactor workers size tsize).2 (expandFactor workers size tsize).1) (m : Loc → T) :
    (∀ m', Phase.Ends (reduceExpanded r workers ideal tsize size b) m m' →
      (∀ i, i < size → m' (b, i) = comb r size (fun k => m (b, k)) i (mul32 (expandFactor workers size tsize).2 (expandFactor workers size tsize).1)) ∧
      ∀ l : Loc, ¬ (l.1 = b ∧ l.2 < size) → m' l = m l) ∧
    Phase.Safe (reduceExpanded r workers ideal tsize size b)
      (fun w l => l.1 = b ∧ l.2 < if w then size else size * mul32 (expandFactor workers size tsize).2 (expandFactor workers size tsize).1) m := by
  unfold reduceExpanded
  generalize mul32 (expandFactor workers size tsize).2 (expandFactor workers size tsize).1 = exp at *
  have hfacts := fun t ht => poolSplit_facts (workers := workers) h (t := t) ht
  have hle := fun t ht => poolSplit_le (workers := workers) h (t := t) ht
  have hsplit := poolSplit_split (workers := workers) h
  have hlast := poolSplit_last (workers := workers) h
  have hsp := h.pos
  generalize poolSplit workers ideal size = p at *
  have hp2 : 1 ≤ p.2 := by
    rcases Nat.eq_zero_or_pos p.2 with e | e
    · rw [e] at hlast; omega
    · exact e
  rw [show max 1 p.2 = p.2 by omega]
  have hc : ∀ t, t < p.2 → splitRange' p.1 size t = splitRange p.1 size t := fun t ht => by rw [(hfacts t ht).2.1, (hfacts t ht).2.2.1]
  have hwp : ∀ t, t < p.2 → wp (expR b (splitRange p.1 size t).1 (splitRange p.1 size t).2 exp size) (cells b (splitRange p.1 size t).1 (splitRange p.1 size t).2)
      (reduceExpandedRange r b (splitRange' p.1 size t).1 (splitRange' p.1 size t).2 exp size) m
      (fun _ => CSt r b size (splitRange p.1 size t).1 (splitRange p.1 size t).2 m (fun _ => exp)) := by
    intro t ht
    rw [hc t ht]
    have := hle t ht
    exact reduceExpandedRange_wp (by omega) (by omega) hexp
  have hd : ∀ i j, i < p.2 → j < p.2 → i ≠ j → ∀ l : Loc, l ∈ cells b (splitRange p.1 size i).1 (splitRange p.1 size i).2 →
      l ∉ expR b (splitRange p.1 size j).1 (splitRange p.1 size j).2 exp size ∧ l ∉ cells b (splitRange p.1 size j).1 (splitRange p.1 size j).2 := by
    rintro i j hi hj hij l ⟨_, h2, h3⟩
    have hi2 := (hle i hi).2.1
    have hno := hsplit.disj i j hi hj hij l.2 h2 h3
    refine ⟨?_, fun e => hno ⟨e.2.1, e.2.2⟩⟩
    rintro ⟨_, x, y, h4, h5, h6, h7⟩
    rcases Nat.eq_zero_or_pos y with e | e
    · rw [e, Nat.zero_mul, Nat.add_zero] at h7
      exact hno (by rw [h7]; exact ⟨h4, h5⟩)
    · have : 1 * size ≤ y * size := Nat.mul_le_mul_right _ e
      omega
  constructor
  · intro m' he
    obtain ⟨h1, h2⟩ := phase_spec (R := fun t => expR b (splitRange p.1 size t).1 (splitRange p.1 size t).2 exp size)
      (W := fun t => cells b (splitRange p.1 size t).1 (splitRange p.1 size t).2) hd hwp he
    refine ⟨fun i hi => ?_, fun l hl => h2 l ?_⟩
    · obtain ⟨t, ht, h3, h4⟩ := hsplit.cover i hi
      obtain ⟨mi, h5, h6, _⟩ := h1 t ht
      rw [h6 _ ⟨rfl, h3, h4⟩]
      exact h5.1 i h3 h4
    · rintro t ht ⟨h3, _, h4⟩
      have := (hle t ht).2.1
      exact hl ⟨h3, by omega⟩
  · refine phase_safe (R := fun t => expR b (splitRange p.1 size t).1 (splitRange p.1 size t).2 exp size)
      (W := fun t => cells b (splitRange p.1 size t).1 (splitRange p.1 size t).2) hd hwp ?_ ?_
    · rintro t ht l ⟨h1, i, j, _, h3, h4, h5⟩
      have := (hle t ht).2.1
      refine ⟨h1, ?_⟩
      simp only [Bool.false_eq_true, if_false]
      have : (j + 1) * size ≤ exp * size := Nat.mul_le_mul_right _ h4
      rw [Nat.add_mul, Nat.mul_comm exp size] at this
      omega
    · rintro t ht l ⟨h1, _, h3⟩
      have := (hle t ht).2.1
      exact ⟨h1, by simp only [if_true]; omega⟩

/-! ### Updates -/

section
variable {r : Red T A} {workers tsize size : Nat}

/-- Values that went to element `k` of the expanded array -/
def inSlot (workers tsize size : Nat) (h : List (Update T)) (k : Nat) : List T :=
  (h.filter fun u => slotOf workers tsize size u.thread u.index = k).map Update.value

theorem runUpdates_spec (s : Nat → T) (L : Nat → List T) (hs : ∀ k, Combines r (L k) (r.toV (s k))) (h : List (Update T)) (k : Nat) :
    Combines r (L k ++ inSlot workers tsize size h k) (r.toV (runUpdates r workers tsize size s h k)) := by
  induction h generalizing s L with
  | nil => simpa [inSlot, runUpdates] using hs k
  | cons u h ih =>
    have := ih (fun k => if k = slotOf workers tsize size u.thread u.index then r.opT (s k) u.value else s k)
      (fun k => L k ++ if slotOf workers tsize size u.thread u.index = k then [u.value] else []) (fun k => by
        by_cases e : slotOf workers tsize size u.thread u.index = k
        · rw [if_pos e, if_pos e.symm]
          exact .store (.app (hs k) (.one _))
        · rw [if_neg e, if_neg (fun e' => e e'.symm), List.append_nil]
          exact hs k)
    unfold runUpdates at *
    rw [List.foldl_cons]
    convert this using 1
    rw [List.append_assoc]
    congr 1
    unfold inSlot
    rw [List.filter_cons]
    by_cases e : slotOf workers tsize size u.thread u.index = k
    · simp [e]
    · simp [e]

/-- Combination of all copies -/
theorem comb_spec (f : Nat → T) (L : Nat → List T) (hs : ∀ k, Combines r (L k) (r.toV (f k))) (i : Nat) {n : Nat} (hn : 1 ≤ n) :
    Combines r ((List.range n).flatMap fun j => L (i + j * size)) (r.toV (comb r size f i n)) := by
  induction n with
  | zero => omega
  | succ n ih =>
    rw [List.range_succ, List.flatMap_append]
    rcases Nat.eq_zero_or_pos n with e | e
    · subst e
      have h0 := hs i
      simpa [comb] using h0
    · rw [comb_succ _ _ e]
      have h1 := hs (i + n * size)
      refine .store (.app (ih e) ?_)
      simpa using h1

theorem flatMap_insert {α : Type} (f : Nat → List α) (x : α) {n j0 : Nat} (h : j0 < n) :
    ((List.range n).flatMap fun j => (if j = j0 then [x] else []) ++ f j).Perm (x :: (List.range n).flatMap f) := by
  induction n with
  | zero => omega
  | succ n ih =>
    rw [List.range_succ, List.flatMap_append, List.flatMap_append]
    by_cases e : n = j0
    · subst e
      have e1 : ((List.range n).flatMap fun j => (if j = n then [x] else []) ++ f j) = (List.range n).flatMap f := by
        apply List.flatMap_congr
        intro j hj
        rw [List.mem_range] at hj
        rw [if_neg (by omega), List.nil_append]
      rw [e1]
      simp only [List.flatMap_cons, List.flatMap_nil, if_true, List.append_nil, List.cons_append, List.nil_append]
      exact List.perm_middle
    · simp only [List.flatMap_cons, List.flatMap_nil, if_neg e, List.append_nil, List.nil_append]
      have := (ih (by omega)).append_right (f n)
      rw [List.cons_append] at this
      exact this

/-- Sizes: the expanded array has less than 2^32 elements. -/
structure ExpandOk (workers tsize size : Nat) : Prop where
  spos : 0 < size
  wpos : 0 < workers
  type : tsize = 1 ∨ tsize = 2 ∨ tsize = 4 ∨ tsize = 8
  fits : size * (expandFactor workers size tsize).2 * (expandFactor workers size tsize).1 ≤ 0xffffffff

theorem ExpandOk.facts (h : ExpandOk workers tsize size) :
    ∃ rpw, (expandFactor workers size tsize).2 = rpw ∧ (expandFactor workers size tsize).1 = workers ∧ 1 ≤ rpw ∧
      mul32 (expandFactor workers size tsize).2 (expandFactor workers size tsize).1 = rpw * workers ∧ size * (rpw * workers) < 2 ^ 32 ∧
      ∀ t i, t < workers → i < size → slotOf workers tsize size t i = i + t * rpw * size := by
  obtain ⟨h1, h2, h3, h4⟩ := h
  have hr : 1 ≤ (expandFactor workers size tsize).2 := by
    unfold expandFactor
    simp only
    split
    · rcases h3 with e | e | e | e <;> subst e <;> decide
    · omega
  have hw : (expandFactor workers size tsize).1 = workers := rfl
  refine ⟨_, rfl, hw, hr, ?_, ?_, ?_⟩
  · rw [hw] at h4 ⊢
    rw [Nat.mul_assoc] at h4
    have : 1 * ((expandFactor workers size tsize).2 * workers) ≤ size * ((expandFactor workers size tsize).2 * workers) := Nat.mul_le_mul_right _ h1
    exact mul32_eq (by omega)
  · rw [hw, Nat.mul_assoc] at h4; omega
  · intro t i ht hi
    rw [hw] at h4
    unfold slotOf indexScale
    generalize (expandFactor workers size tsize).2 = rpw at *
    have e1 : size * rpw * workers = workers * (rpw * size) := by ring
    have e2 : (t + 1) * (rpw * size) ≤ workers * (rpw * size) := Nat.mul_le_mul_right _ ht
    rw [Nat.add_mul, Nat.one_mul] at e2
    have e3 : 1 * size ≤ rpw * size := Nat.mul_le_mul_right _ hr
    rw [mul32_eq (a := rpw) (by omega), mul32_eq (by omega), add32_eq (by omega), Nat.mul_assoc, Nat.add_comm]

theorem collect_perm (h : ExpandOk workers tsize size) {i rpw : Nat} (hi : i < size)
    (hslot : ∀ t i, t < workers → i < size → slotOf workers tsize size t i = i + t * rpw * size) (hr : 1 ≤ rpw)
    (hist : List (Update T)) (hh : ∀ u, u ∈ hist → u.thread < workers ∧ u.index < size) :
    ((List.range (rpw * workers)).flatMap fun j => inSlot workers tsize size hist (i + j * size)).Perm
      ((hist.filter fun u => u.index = i).map Update.value) := by
  induction hist with
  | nil => simp [inSlot]
  | cons u hist ih =>
    have ih := ih (fun u hu => hh u (List.mem_cons_of_mem _ hu))
    obtain ⟨ht, hu⟩ := hh u List.mem_cons_self
    have hsl := hslot u.thread u.index ht hu
    have hin : ∀ j, slotOf workers tsize size u.thread u.index = i + j * size ↔ u.index = i ∧ j = u.thread * rpw := by
      intro j
      rw [hsl]
      constructor
      · intro e
        have hm := congrArg (· % size) e
        simp only [Nat.add_mul_mod_self_right, Nat.mod_eq_of_lt hu, Nat.mod_eq_of_lt hi] at hm
        refine ⟨hm, ?_⟩
        have := h.spos
        have e2 : j * size = u.thread * rpw * size := by omega
        exact Nat.eq_of_mul_eq_mul_right this e2
      · rintro ⟨e1, e2⟩
        rw [e1, e2]
    by_cases e : u.index = i
    · have hj0 : u.thread * rpw < rpw * workers := by
        rw [Nat.mul_comm rpw workers]
        exact Nat.mul_lt_mul_of_pos_right ht hr
      have e1 : (fun j => inSlot workers tsize size (u :: hist) (i + j * size)) =
          fun j => (if j = u.thread * rpw then [u.value] else []) ++ inSlot workers tsize size hist (i + j * size) := by
        funext j
        unfold inSlot
        rw [List.filter_cons]
        by_cases e' : j = u.thread * rpw
        · have : slotOf workers tsize size u.thread u.index = i + j * size := (hin j).2 ⟨e, e'⟩
          simp [this, e']
        · have : ¬ slotOf workers tsize size u.thread u.index = i + j * size := fun e2 => e' ((hin j).1 e2).2
          simp [this, e']
      rw [e1, List.filter_cons, if_pos (by simpa using e), List.map_cons]
      exact (flatMap_insert _ _ hj0).trans (ih.cons _)
    · have e1 : (fun j => inSlot workers tsize size (u :: hist) (i + j * size)) = fun j => inSlot workers tsize size hist (i + j * size) := by
        funext j
        unfold inSlot
        rw [List.filter_cons, if_neg]
        simp only [decide_eq_true_eq]
        exact fun e2 => e ((hin j).1 e2).1
      rw [e1, List.filter_cons, if_neg (by simpa using e)]
      exact ih

end

/-! ### The property -/

/-- **C27.**  Expand an array, perform an arbitrary sequence of scatter-reductions on any of the threads,
collapse it: element `i` is a combination of its initial value and of exactly the values scattered to `i`
(in some order; the identity may be inserted).  Memory accesses stay within the expanded array. -/
theorem C27_expanded_partial (r : Red T A) (workers ideal tsize size b : Nat) (h : ExpandOk workers tsize size)
    (hw2 : 2 ≤ workers) (hid : 0 < ideal) (hid2 : ideal ≤ 2 ^ 31) (hbytes : size * tsize < 2 ^ 32)
    (src : Nat → T) (hist : List (Update T)) (hh : ∀ u, u ∈ hist → u.thread < workers ∧ u.index < size) :
    ∃ new_size arr, expandArray workers tsize size (r.ofV r.e) src = some (new_size, arr) ∧
      (∀ u, u ∈ hist → slotOf workers tsize size u.thread u.index < new_size) ∧
      ∀ m : Loc → T, (∀ k, k < new_size → m (b, k) = runUpdates r workers tsize size arr hist k) →
        Phase.Safe (reduceExpanded r workers ideal tsize size b) (fun _ l => l.1 = b ∧ l.2 < new_size) m ∧
        ∀ m', Phase.Ends (reduceExpanded r workers ideal tsize size b) m m' →
          (∀ i, i < size → CombinesIn r true (src i :: (hist.filter fun u => u.index = i).map Update.value) (r.toV (m' (b, i)))) ∧
          ∀ l : Loc, ¬ (l.1 = b ∧ l.2 < size) → m' l = m l := by
  obtain ⟨rpw, e1, e2, e3, e4, e5, e6⟩ := h.facts
  have hfits := h.fits
  have hsp := h.spos
  have hsum : size + ideal ≤ 2 ^ 32 := by
    have h1 : 1 * 2 ≤ rpw * workers := Nat.mul_le_mul e3 hw2
    have h2 : size * (1 * 2) ≤ size * (rpw * workers) := Nat.mul_le_mul_left _ h1
    omega
  have htp : 0 < tsize := by rcases h.type with e | e | e | e <;> omega
  unfold expandArray
  rw [if_neg (by omega)]
  have hnew : size * (expandFactor workers size tsize).2 * (expandFactor workers size tsize).1 = size * (rpw * workers) := by
    rw [e1, e2, Nat.mul_assoc]
  have hexp1 : 1 ≤ rpw * workers := Nat.mul_pos e3 h.wpos
  have hge : size * 1 ≤ size * (rpw * workers) := Nat.mul_le_mul_left _ hexp1
  rw [hnew]
  refine ⟨_, _, rfl, fun u hu => ?_, fun m hm => ?_⟩
  · obtain ⟨h1, h2⟩ := hh u hu
    rw [e6 _ _ h1 h2]
    have h3 : (u.thread * rpw + 1) * size ≤ rpw * workers * size := by
      apply Nat.mul_le_mul_right
      have : (u.thread + 1) * rpw ≤ workers * rpw := Nat.mul_le_mul_right _ h1
      rw [Nat.add_mul, Nat.mul_comm workers] at this
      omega
    rw [Nat.add_mul, Nat.mul_comm (rpw * workers)] at h3
    omega
  · have hcoll := reduceExpanded_spec r workers ideal tsize size b ⟨hsp, hid, hsum⟩ (by rw [e4]; exact hexp1) m
    rw [e4] at hcoll
    refine ⟨?_, fun m' hm' => ?_⟩
    · have := hcoll.2
      intro m1 ps i hst
      obtain ⟨g1, g2⟩ := this m1 ps i hst
      refine ⟨fun l k hl => ?_, fun l v k hl => ?_⟩
      · have := g1 l k hl
        simpa using this
      · have := g2 l v k hl
        simp only [if_true] at this
        exact ⟨this.1, by omega⟩
    · obtain ⟨h1, h2⟩ := hcoll.1 m' hm'
      refine ⟨fun i hi => ?_, h2⟩
      rw [h1 i hi]
      -- contents of the expanded array
      have hcont : ∀ k, Combines r (if k < size then [src k] else [])
          (r.toV (if k < mul32 size tsize / tsize then src k else r.ofV r.e)) := by
        intro k
        rw [mul32_eq hbytes, Nat.mul_div_cancel _ htp]
        split
        · exact .one _
        · exact .store .nil
      have hs := runUpdates_spec (workers := workers) (tsize := tsize) (size := size) _ _ hcont hist
      have hcomb := comb_spec (size := size) (f := runUpdates r workers tsize size (fun i => if i < mul32 size tsize / tsize then src i else r.ofV r.e) hist)
        (L := fun k => (if k < size then [src k] else []) ++ inSlot workers tsize size hist k) (fun k => hs k) i hexp1
      -- only the expanded array is read
      have hsame : ∀ n, n ≤ rpw * workers → comb r size (fun k => m (b, k)) i n =
          comb r size (runUpdates r workers tsize size (fun i => if i < mul32 size tsize / tsize then src i else r.ofV r.e) hist) i n := by
        intro n
        induction n with
        | zero => intro _; simp only [comb]; exact hm i (by omega)
        | succ n ih =>
          intro hn
          rcases Nat.eq_zero_or_pos n with e | e
          · subst e; simp only [comb]; exact hm i (by omega)
          · rw [comb_succ _ _ e, comb_succ _ _ e, ih (by omega)]
            have h3 : (n + 1) * size ≤ rpw * workers * size := Nat.mul_le_mul_right _ hn
            rw [Nat.add_mul, Nat.mul_comm (rpw * workers)] at h3
            rw [hm (i + n * size) (by omega)]
      rw [hsame _ (le_refl _)]
      refine CombinesIn.perm ⟨_, .refl _, hcomb⟩ ?_
      have hp := collect_perm h hi e6 e3 hist hh
      have e7 : (List.range (rpw * workers)).flatMap (fun j => (if i + j * size < size then [src (i + j * size)] else []) ++ inSlot workers tsize size hist (i + j * size)) =
          (List.range (rpw * workers)).flatMap (fun j => (if j = 0 then [src i] else []) ++ inSlot workers tsize size hist (i + j * size)) := by
        apply List.flatMap_congr
        intro j _
        rcases Nat.eq_zero_or_pos j with e | e
        · subst e
          simp [hi]
        · have : 1 * size ≤ j * size := Nat.mul_le_mul_right _ e
          rw [if_neg (by omega), if_neg (by omega)]
      rw [e7]
      exact (flatMap_insert _ _ (by omega)).trans (hp.cons _)

/-- **C27.**  For integers, the result is determined. -/
theorem C27_integers_partial {w : Nat} (signed : Bool) (hw : w = 8 ∨ w = 16 ∨ w = 32 ∨ w = 64) (op : ROp) (workers ideal size b : Nat) (h : ExpandOk workers (w / 8) size)
    (hw2 : 2 ≤ workers) (hid : 0 < ideal) (hid2 : ideal ≤ 2 ^ 31) (hbytes : size * (w / 8) < 2 ^ 32)
    (src : Nat → BitVec w) (hist : List (Update (BitVec w))) (hh : ∀ u, u ∈ hist → u.thread < workers ∧ u.index < size) :
    ∃ new_size arr, expandArray workers (w / 8) size (BitVec.ofNat w (identityTable signed w op)) src = some (new_size, arr) ∧
      ∀ m m' : Loc → BitVec w, (∀ k, k < new_size → m (b, k) = runUpdates (intRed signed w op) workers (w / 8) size arr hist k) →
        Phase.Ends (reduceExpanded (intRed signed w op) workers ideal (w / 8) size b) m m' →
          ∀ i, i < size → IsReduction signed op (src i :: (hist.filter fun u => u.index = i).map Update.value) (m' (b, i)) := by
  rw [identity_init signed op hw]
  obtain ⟨ns, arr, h1, _, h3⟩ := C27_expanded_partial (intRed signed w op) workers ideal (w / 8) size b h hw2 hid hid2 hbytes src hist hh
  refine ⟨ns, arr, h1, fun m m' hm hm' i hi => ?_⟩
  obtain ⟨l, h4, h5⟩ := ((h3 m hm).2 m' hm').1 i hi
  have h6 : Result (intRed signed w op) l (m' (b, i)) := .red h5
  exact (h6.isReduction signed (by rcases hw with e | e | e | e <;> omega) op).perm h4

/-- The hypotheses can be met: 1000 32-bit numbers, 8 workers; a single number -/
example : ExpandOk 8 4 1000 := ⟨by omega, by omega, by omega, by decide⟩
example : ExpandOk 8 4 1 ∧ expandFactor 8 1 4 = (8, 16) := ⟨⟨by omega, by omega, by omega, by decide⟩, rfl⟩

/-- **C27 (negation).**  If the array has 2^32 bytes or more, its contents are not (completely) copied
into the expanded array: 2^29 double precision numbers, two workers. -/
theorem C27_copy_wraps (ident : T) (src : Nat → T) :
    ∃ arr, expandArray 2 8 (2 ^ 29) ident src = some (2 ^ 30, arr) ∧ ∀ i, arr i = ident := by
  refine ⟨fun i => if i < mul32 (2 ^ 29) 8 / 8 then src i else ident, ?_, fun i => ?_⟩
  · rfl
  · have : mul32 (2 ^ 29) 8 / 8 = 0 := by decide +kernel
    simp only [this, Nat.not_lt_zero, if_false]

/-- **C27 (negation).**  The number of copies is computed anew from the number of threads when the array
is collapsed.  If the user changes the latter in between (`jit_llvm_set_thread_count`), values are lost:
here, with 4 workers at first and 2 workers at the end, thread 3 adds 7 to element 0 of an array of two
zeros; the final value is 0. -/
theorem C27_thread_count_changed (m m' : Loc → BitVec 32) (arr : Nat → BitVec 32) (ns : Nat)
    (h : expandArray 4 4 2 0 (fun _ => (0 : BitVec 32)) = some (ns, arr))
    (hm : ∀ k, k < ns → m (0, k) = runUpdates (intRed false 32 .add) 4 4 2 arr [⟨3, 0, 7⟩] k)
    (he : Phase.Ends (reduceExpanded (intRed false 32 .add) 2 16384 4 2 0) m m') : m' (0, 0) = 0 := by
  have h1 := (reduceExpanded_spec (intRed false 32 .add) 2 16384 4 2 0 ⟨by omega, by omega, by omega⟩ (by decide +kernel) m).1 m' he
  have hns : ns = 8 ∧ arr = fun i => if i < mul32 2 4 / 4 then 0 else 0 := by
    have e : expandArray 4 4 2 0 (fun _ => (0 : BitVec 32)) = some (8, fun i => if i < mul32 2 4 / 4 then 0 else 0) := rfl
    rw [e] at h
    simp only [Option.some.injEq, Prod.mk.injEq] at h
    exact ⟨h.1.symm, h.2.symm⟩
  obtain ⟨rfl, rfl⟩ := hns
  rw [h1.1 0 (by omega), show mul32 (expandFactor 2 2 4).2 (expandFactor 2 2 4).1 = 2 by decide +kernel]
  simp only [comb]
  rw [hm 0 (by omega), hm (0 + (0 + 1) * 2) (by omega)]
  decide +kernel

end Verif.Llvm
