import Verif.Llvm.Red

/-!
# C22: block reductions (`LLVMThreadState::block_reduce`, `/repo/src/llvm_ts.cpp:257-350`)
-/
namespace Verif.Llvm

open Verif.Par

variable {T A : Type}

/-- Task of a block reduction (`create_block_reduction_2`, llvm_red.h:86-117) -/
def redTask (r : Red T A) (g : Geo) (size block_size inb outb index : Nat) : Prog Loc T Unit :=
  forLt (unitRange g index).1 (unitRange g index).2 fun i =>
    let c := chunkRange g size block_size i
    (Prog.loop (c.2 - c.1) r.e fun k accum =>
      (Prog.get (inb, c.1 + k)).bind fun x => .pure (r.op accum (r.toV x))).bind fun accum =>
    Prog.put (outb, i) (r.ofV accum)

/-- `memcpy_async` of `n` elements (llvm_ts.cpp:932-943): a single task -/
def copyTask (n inb outb : Nat) (_index : Nat) : Prog Loc T Unit :=
  forLt 0 n fun i => (Prog.get (inb, i)).bind fun x => Prog.put (outb, i) x

/-- What a call does: submissions and temporary allocations (buffer and number of elements), an
exception, a division by zero, or infinite recursion -/
inductive Plan (T : Type) where
  | ok (phases : List (Phase Loc T)) (allocs : List (Nat × Nat))
  | raise
  | divZero
  | diverge

/-- A submission and an allocation before a plan -/
def Plan.cons (p : Phase Loc T) (a : Nat × Nat) : Plan T → Plan T
  | .ok ps as => .ok (p :: ps) (a :: as)
  | q => q

/-- `LLVMThreadState::block_reduce` (llvm_ts.cpp:257-350).  `tsize` is the size of an element in
bytes; `fresh` and the following numbers stand for buffers obtained from `jitc_malloc`. -/
def blockReduce (r : Red T A) (tsize workers ideal size block_size inb outb fresh : Nat) : Plan T :=
  if size = 0 then .ok [] []
  else if block_size = 0 ∨ block_size > size then .raise
  else if block_size = 1 then .ok [(1, copyTask size inb outb)] []
  else (geometry workers ideal size block_size).elim .divZero fun g =>
    if g.chunks_per_block > 1 then
      if _h : g.chunks_per_block < block_size then
        Plan.cons (g.work_units, redTask r g size block_size inb fresh) (fresh, mul32 tsize g.chunk_count / tsize)
          (blockReduce r tsize workers ideal g.chunk_count g.chunks_per_block fresh outb (fresh + 1))
      else .diverge
    else .ok [(g.work_units, redTask r g size block_size inb outb)] []
termination_by block_size

/-! ### Chunks -/

section
variable {g : Geo} {size bs : Nat}

/-- The elements of chunk `i` -/
theorem chunkRange_eq (hsum : size + bs ≤ 2 ^ 32) (hle : bs ≤ size) (hg : g.Ok size bs) {i : Nat} (hi : i < g.chunk_count) :
    chunkRange g size bs i = (i / g.chunks_per_block * bs + i % g.chunks_per_block * g.chunk_size,
      min (i / g.chunks_per_block * bs + min (i % g.chunks_per_block * g.chunk_size + g.chunk_size) bs) size) ∧
    i / g.chunks_per_block < cdiv size bs ∧ i % g.chunks_per_block * g.chunk_size < bs := by
  have hbs : 0 < bs := lt_of_lt_of_le hg.cs hg.cs_le
  have hb : i / g.chunks_per_block < cdiv size bs := by
    rw [Nat.div_lt_iff_lt_mul hg.cpb, ← hg.cc]; exact hi
  have hc := Nat.mod_lt i hg.cpb
  unfold chunkRange
  dsimp only
  generalize i / g.chunks_per_block = b at *
  generalize i % g.chunks_per_block = c at *
  have hcs : c * g.chunk_size < bs := by
    have h1 : (c + 1) * g.chunk_size ≤ g.chunks_per_block * g.chunk_size := Nat.mul_le_mul_right _ hc
    rw [Nat.add_mul] at h1
    have := hg.tight
    omega
  have hbo : b * bs < size := (lt_cdiv hbs).1 hb
  refine ⟨?_, hb, hcs⟩
  have hcsle := hg.cs_le
  rw [mul32_eq (by omega), mul32_eq (by omega), add32_eq (b := g.chunk_size) (by omega), add32_eq (by omega), add32_eq (by omega),
    Nat.add_comm _ (b * bs), Nat.add_comm _ (b * bs)]

/-- Elements of block `b` -/
def blockOf (f : Nat → T) (size bs b : Nat) : List T := slice f (b * bs) (min (b * bs + bs) size)

/-- Elements of chunk `i` -/
def chunkOf (f : Nat → T) (g : Geo) (size bs i : Nat) : List T :=
  slice f (chunkRange g size bs i).1 (chunkRange g size bs i).2

/-- The first `k` chunks of a block -/
theorem chunks_before (hsum : size + bs ≤ 2 ^ 32) (hle : bs ≤ size) (hg : g.Ok size bs) (f : Nat → T) {b : Nat}
    (hb : b < cdiv size bs) : ∀ k, k ≤ g.chunks_per_block →
    ((List.range k).map (fun c => chunkOf f g size bs (b * g.chunks_per_block + c))).flatten
      = slice f (b * bs) (min (b * bs + min (k * g.chunk_size) bs) size) := by
  have hbs : 0 < bs := lt_of_lt_of_le hg.cs hg.cs_le
  have hbo : b * bs < size := (lt_cdiv hbs).1 hb
  intro k
  induction k with
  | zero => intro _; simp
  | succ k ih =>
    intro hk
    have hi : b * g.chunks_per_block + k < g.chunk_count := by
      rw [hg.cc]
      have : (b + 1) * g.chunks_per_block ≤ cdiv size bs * g.chunks_per_block := Nat.mul_le_mul_right _ hb
      rw [Nat.add_mul] at this; omega
    obtain ⟨e, _, h3⟩ := chunkRange_eq hsum hle hg hi
    have e1 : (b * g.chunks_per_block + k) / g.chunks_per_block = b := by
      rw [Nat.mul_comm, Nat.mul_add_div hg.cpb, Nat.div_eq_of_lt (by omega), Nat.add_zero]
    have e2 : (b * g.chunks_per_block + k) % g.chunks_per_block = k := by
      rw [Nat.mul_comm, Nat.mul_add_mod, Nat.mod_eq_of_lt (by omega)]
    rw [e1, e2] at e
    rw [e2] at h3
    rw [List.range_succ, List.map_append, List.flatten_append, ih (by omega)]
    simp only [List.map_cons, List.map_nil, List.flatten_cons, List.flatten_nil, List.append_nil]
    unfold chunkOf
    rw [e]
    simp only
    rw [Nat.add_mul, Nat.one_mul]
    by_cases hlt : b * bs + k * g.chunk_size ≤ size
    · rw [show min (b * bs + min (k * g.chunk_size) bs) size = b * bs + k * g.chunk_size by omega]
      exact slice_append f (by omega) (by omega)
    · rw [slice_self f (lo := b * bs + k * g.chunk_size) (by omega), List.append_nil]
      congr 1
      omega

/-- The chunks of a block make up the block. -/
theorem chunks_block (hsum : size + bs ≤ 2 ^ 32) (hle : bs ≤ size) (hg : g.Ok size bs) (f : Nat → T) {b : Nat}
    (hb : b < cdiv size bs) :
    ((List.range g.chunks_per_block).map (fun c => chunkOf f g size bs (b * g.chunks_per_block + c))).flatten
      = blockOf f size bs b := by
  rw [chunks_before hsum hle hg f hb _ (le_refl _)]
  unfold blockOf
  have := hg.cover
  congr 2
  omega

theorem split_units (hg : g.Ok size bs) : Split g.chunk_count g.work_units (fun t => (unitRange g t).1) (fun t => (unitRange g t).2) := by
  have e : ∀ t, t < g.work_units → unitRange g t = (t * g.work_unit_size, min (t * g.work_unit_size + g.work_unit_size) g.chunk_count) := by
    intro t ht
    have := hg.nowrap t ht
    unfold unitRange
    dsimp only
    rw [mul32_eq (by omega), add32_eq (by omega)]
  refine ⟨fun t ht => ?_, fun t t' ht ht' hne i h1 h2 => ?_, fun i hi => ?_⟩
  · simp only [e t ht]; omega
  · simp only [e t ht] at h1 h2
    simp only [e t' ht']
    rintro ⟨h3, h4⟩
    have e1 : i / g.work_unit_size = t := by
      rw [Nat.div_eq_iff hg.wus]; omega
    have e2 : i / g.work_unit_size = t' := by
      rw [Nat.div_eq_iff hg.wus]; omega
    omega
  · have hu := hg.units
    have ht : i / g.work_unit_size < g.work_units := by
      rw [Nat.div_lt_iff_lt_mul hg.wus]; omega
    refine ⟨_, ht, ?_⟩
    simp only [e _ ht]
    have h1 := Nat.div_add_mod i g.work_unit_size
    have h2 := Nat.mod_lt i hg.wus
    rw [Nat.mul_comm] at h1
    omega

/-! ### The reduction task -/

/-- Locations `lo .. hi-1` of a buffer -/
def cells (b lo hi : Nat) : Set Loc := {l | l.1 = b ∧ lo ≤ l.2 ∧ l.2 < hi}

theorem red_items (r : Red T A) (hsum : size + bs ≤ 2 ^ 32) (hle : bs ≤ size) (hg : g.Ok size bs) {inb outb : Nat} (hne : inb ≠ outb ∨ g.chunk_count ≤ 1)
    (m0 : Loc → T) :
    Items g.chunk_count (fun i => cells inb (chunkRange g size bs i).1 (chunkRange g size bs i).2) (fun i => {l | l = (outb, i)})
      (fun i m => Result r (chunkOf (fun j => m0 (inb, j)) g size bs i) (m (outb, i))) m0
      (fun i =>
        let c := chunkRange g size bs i
        (Prog.loop (c.2 - c.1) r.e fun k accum =>
          (Prog.get (inb, c.1 + k)).bind fun x => .pure (r.op accum (r.toV x))).bind fun accum =>
        Prog.put (outb, i) (r.ofV accum)) := by
  refine ⟨?_, ?_, ?_⟩
  · rintro i j hi hj hij _ rfl
    refine ⟨fun h => ?_, fun h => hij ?_⟩
    · rcases hne with hne | hne
      · exact hne h.1.symm
      · omega
    · have := congrArg Prod.snd (Set.mem_setOf_eq ▸ h)
      exact this
  · intro i m m' hi h hp
    rw [h (outb, i) rfl]; exact hp
  · intro i m hi hm
    dsimp only
    rw [wp_bind]
    refine wp_mono (wp_loop (fun k a m' => m' = m ∧
      Combines r (slice (fun j => m0 (inb, j)) (chunkRange g size bs i).1 ((chunkRange g size bs i).1 + k)) a) ?_ ?_) ?_
    · refine ⟨rfl, ?_⟩
      rw [slice_self _ (by omega)]; exact .nil
    · rintro k a _ hk ⟨rfl, h2⟩
      rw [wp_bind]
      have hmem : (inb, (chunkRange g size bs i).1 + k) ∈ cells inb (chunkRange g size bs i).1 (chunkRange g size bs i).2 :=
        ⟨rfl, Nat.le_add_right _ _, by simp only; omega⟩
      refine wp_get hmem ⟨rfl, ?_⟩
      rw [hm _ (Or.inl hmem), ← Nat.add_assoc, slice_succ _ (Nat.le_add_right _ _)]
      exact .app h2 (.one _)
    · rintro a _ ⟨rfl, h2⟩
      refine wp_put rfl ?_
      simp only [upd, if_true]
      refine .red ?_
      unfold chunkOf
      by_cases h : (chunkRange g size bs i).1 ≤ (chunkRange g size bs i).2
      · rw [show (chunkRange g size bs i).1 + ((chunkRange g size bs i).2 - (chunkRange g size bs i).1) = (chunkRange g size bs i).2 by omega] at h2
        exact h2
      · rw [show (chunkRange g size bs i).1 + ((chunkRange g size bs i).2 - (chunkRange g size bs i).1) = (chunkRange g size bs i).1 by omega] at h2
        rw [slice_self _ (by omega)] at h2 ⊢
        exact h2

/-- The chunks lie within the input. -/
theorem chunk_le : (chunkRange g size bs i).2 ≤ size := by
  unfold chunkRange; dsimp only; omega

theorem redTask_spec (r : Red T A) (hsum : size + bs ≤ 2 ^ 32) (hle : bs ≤ size) (hg : g.Ok size bs) {inb outb : Nat} (hne : inb ≠ outb ∨ g.chunk_count ≤ 1)
    (m m' : Loc → T) (h : Phase.Ends (g.work_units, redTask r g size bs inb outb) m m') :
    (∀ i, i < g.chunk_count → Result r (chunkOf (fun j => m (inb, j)) g size bs i) (m' (outb, i))) ∧
    ∀ l, l ∉ cells outb 0 g.chunk_count → m' l = m l := by
  obtain ⟨h1, h2⟩ := items_spec (split_units hg) (red_items r hsum hle hg hne m) h
  refine ⟨h1, fun l hl => h2 l ?_⟩
  rintro i hi rfl
  exact hl ⟨rfl, Nat.zero_le _, hi⟩

theorem redTask_safe (r : Red T A) (hsum : size + bs ≤ 2 ^ 32) (hle : bs ≤ size) (hg : g.Ok size bs) {inb outb : Nat} (hne : inb ≠ outb ∨ g.chunk_count ≤ 1)
    (m : Loc → T) {ok : Bool → Loc → Prop} (hr : ∀ j, j < size → ok false (inb, j)) (hw : ∀ i, i < g.chunk_count → ok true (outb, i)) :
    Phase.Safe (g.work_units, redTask r g size bs inb outb) ok m := by
  refine items_safe (split_units hg) (red_items r hsum hle hg hne m) ?_ ?_
  · rintro i hi ⟨b, j⟩ ⟨h1, h2, h3⟩
    simp only at h1 h3
    subst h1
    exact hr j (lt_of_lt_of_le h3 chunk_le)
  · rintro i hi _ rfl
    exact hw i hi

end

/-! ### Copies -/

theorem split_one (n : Nat) : Split n 1 (fun _ => 0) (fun _ => n) :=
  ⟨fun _ _ => le_refl _, fun t t' h1 h2 h => by omega, fun i hi => ⟨0, by omega, by omega, hi⟩⟩

theorem copy_items (n : Nat) {inb outb : Nat} (hne : inb ≠ outb) (m0 : Loc → T) :
    Items n (fun i => {l | l = (inb, i)}) (fun i => {l | l = (outb, i)}) (fun i m => m (outb, i) = m0 (inb, i)) m0
      (fun i => (Prog.get (inb, i)).bind fun x => Prog.put (outb, i) x) := by
  refine ⟨?_, ?_, ?_⟩
  · rintro i j hi hj hij _ rfl
    refine ⟨fun h => hne (congrArg Prod.fst (Set.mem_setOf_eq ▸ h)).symm, fun h => hij (congrArg Prod.snd (Set.mem_setOf_eq ▸ h))⟩
  · intro i m m' hi h hp
    rw [h (outb, i) rfl]; exact hp
  · intro i m hi hm
    rw [wp_bind]
    refine wp_get rfl (wp_put rfl ?_)
    simp only [upd, if_true]
    exact hm _ (Or.inl rfl)

theorem copyTask_spec (n : Nat) {inb outb : Nat} (hne : inb ≠ outb) (m m' : Loc → T) (h : Phase.Ends (1, copyTask n inb outb) m m') :
    (∀ i, i < n → m' (outb, i) = m (inb, i)) ∧ ∀ l, l ∉ cells outb 0 n → m' l = m l := by
  obtain ⟨h1, h2⟩ := items_spec (split_one n) (copy_items n hne m) h
  refine ⟨h1, fun l hl => h2 l ?_⟩
  rintro i hi rfl
  exact hl ⟨rfl, Nat.zero_le _, hi⟩

theorem copyTask_safe (n : Nat) {inb outb : Nat} (hne : inb ≠ outb) (m : Loc → T) {ok : Bool → Loc → Prop}
    (hr : ∀ j, j < n → ok false (inb, j)) (hw : ∀ i, i < n → ok true (outb, i)) :
    Phase.Safe (1, copyTask n inb outb) ok m := by
  refine items_safe (split_one n) (copy_items n hne m) ?_ ?_
  · rintro i hi _ rfl; exact hr i hi
  · rintro i hi _ rfl; exact hw i hi

/-! ### Block reductions -/

/-- Accesses within bounds: the input is only read; `out` has `nout` elements; temporary buffers have
the size that was allocated. -/
def InBounds (inb nin outb nout : Nat) (allocs : List (Nat × Nat)) (write : Bool) (l : Loc) : Prop :=
  (write = false ∧ l.1 = inb ∧ l.2 < nin) ∨ (l.1 = outb ∧ l.2 < nout) ∨ ∃ a, a ∈ allocs ∧ l.1 = a.1 ∧ l.2 < a.2

theorem cdiv_mul_self {a b : Nat} (hb : 0 < b) : cdiv (a * b) b = a := by
  apply Nat.le_antisymm
  · exact cdiv_le hb (le_refl _)
  · by_contra h
    have h1 := cdiv_mul_ge (a := a * b) hb
    have h2 : (cdiv (a * b) b + 1) * b ≤ a * b := Nat.mul_le_mul_right _ (by omega)
    rw [Nat.add_mul] at h2
    omega

theorem slice_map_range (f : Nat → T) (lo n : Nat) : slice f lo (lo + n) = (List.range n).map (fun k => f (lo + k)) := by
  unfold slice; rw [Nat.add_sub_cancel_left]

theorem safe_mono {L V : Type} [DecidableEq L] {ok ok' : Bool → L → Prop} (hk : ∀ b l, ok b l → ok' b l) {ps : List (Phase L V)} {m : L → V}
    (h : Safe ok ps m) : Safe ok' ps m := by
  induction ps generalizing m with
  | nil => trivial
  | cons p ps ih =>
    refine ⟨fun m' q i hs => ?_, fun m1 h1 => ih (h.2 m1 h1)⟩
    obtain ⟨a, b⟩ := h.1 m' q i hs
    exact ⟨fun l k e => hk _ _ (a l k e), fun l v k e => hk _ _ (b l v k e)⟩

section
variable {ideal size bs : Nat} {g : Geo}

/-- The sizes of the recursive call -/
theorem sizes_rec (hs : SizesOk ideal size bs) (hg : g.Ok size bs) (hc2 : 2 * g.chunks_per_block ≤ bs + 1) (hc : 2 ≤ g.chunks_per_block) :
    SizesOk ideal g.chunk_count g.chunks_per_block := by
  obtain ⟨hb, hle, hsum, hi, hi31⟩ := hs
  have hbc := cdiv_pos (a := size) (b := bs) (by omega) (by omega)
  have hbclt := cdiv_mul_lt (a := size) (b := bs) (by omega)
  rw [hg.cc]
  generalize cdiv size bs = bc at *
  have h0 : bc * 2 ≤ bc * bs := Nat.mul_le_mul_left _ hb
  have h1 : (bc + 1) * (2 * g.chunks_per_block) ≤ (bc + 1) * (bs + 1) := Nat.mul_le_mul_left _ hc2
  have h2 : (bc + 1) * (bs + 1) = bc * bs + bc + bs + 1 := by ring
  have h3 : (bc + 1) * (2 * g.chunks_per_block) = 2 * (bc * g.chunks_per_block + g.chunks_per_block) := by ring
  refine ⟨hc, Nat.le_mul_of_pos_left _ hbc, by omega, hi, hi31⟩

/-- The size of the temporary buffer -/
theorem alloc_ok (hs : SizesOk ideal size bs) (hg : g.Ok size bs) (hid : 16 ≤ ideal) (hcs : g.chunk_size = ideal) (h2 : 2 ≤ g.chunks_per_block)
    {tsize : Nat} (ht : 1 ≤ tsize) (ht8 : tsize ≤ 8) : mul32 tsize g.chunk_count / tsize = g.chunk_count := by
  obtain ⟨hb, hle, hsum, hi, hi31⟩ := hs
  have hbclt := cdiv_mul_lt (a := size) (b := bs) (by omega)
  have htight := hg.tight
  have h1 : g.chunk_count * 16 ≤ 2 * (cdiv size bs * bs) := by
    rw [hg.cc]
    generalize cdiv size bs = bc at *
    have h3 : 2 * g.chunk_size ≤ g.chunks_per_block * g.chunk_size := Nat.mul_le_mul_right _ h2
    have h4 : bc * (g.chunks_per_block * g.chunk_size) ≤ bc * (2 * bs) := Nat.mul_le_mul_left _ (by omega)
    have h5 : bc * g.chunks_per_block * 16 ≤ bc * g.chunks_per_block * g.chunk_size := Nat.mul_le_mul_left _ (by omega)
    have h6 : bc * g.chunks_per_block * g.chunk_size = bc * (g.chunks_per_block * g.chunk_size) := by ring
    have h7 : bc * (2 * bs) = 2 * (bc * bs) := by ring
    omega
  have h2 : tsize * g.chunk_count ≤ 8 * g.chunk_count := Nat.mul_le_mul_right _ ht8
  rw [mul32_eq (by omega), Nat.mul_div_cancel_left _ (by omega)]

theorem blockReduce_rec (r : Red T A) (tsize workers : Nat) (hid : 16 ≤ ideal) (ht : 1 ≤ tsize) (ht8 : tsize ≤ 8) :
    ∀ (bs size inb outb fresh : Nat), SizesOk ideal size bs → inb ≠ outb → inb < fresh → outb < fresh →
    ∃ ps as, blockReduce r tsize workers ideal size bs inb outb fresh = .ok ps as ∧ (∀ a, a ∈ as → fresh ≤ a.1) ∧
      ∀ m, Safe (InBounds inb size outb (cdiv size bs) as) ps m ∧
        ∀ m', Ends ps m m' →
          (∀ b, b < cdiv size bs → Result r (blockOf (fun j => m (inb, j)) size bs b) (m' (outb, b))) ∧
          ∀ l, l.1 < fresh → l ∉ cells outb 0 (cdiv size bs) → m' l = m l := by
  intro bs
  induction bs using Nat.strong_induction_on with
  | _ bs ih =>
    intro size inb outb fresh hs hne hinf houtf
    obtain ⟨g, hgeo, hg, hcase⟩ := geometry_ok (workers := workers) hs
    have hb := hs.bs
    have hle := hs.le
    have hsum := hs.sum
    rw [blockReduce, if_neg (by omega), if_neg (by omega), if_neg (by omega), hgeo, Option.elim_some]
    have hfin : g.chunks_per_block = 1 ∨ 1 < g.chunks_per_block := by have := hg.cpb; omega
    rcases hfin with h1 | h1
    · rw [if_neg (by omega)]
      have hcc : g.chunk_count = cdiv size bs := by rw [hg.cc, h1, Nat.mul_one]
      refine ⟨_, _, rfl, by simp, fun m => ⟨⟨?_, fun _ _ => trivial⟩, ?_⟩⟩
      · refine redTask_safe r hsum hle hg (Or.inl hne) m (fun j hj => Or.inl ⟨rfl, rfl, hj⟩) (fun i hi => Or.inr (Or.inl ⟨rfl, ?_⟩))
        rw [← hcc]; exact hi
      · rintro m' ⟨m1, hm1, rfl⟩
        obtain ⟨h2, h3⟩ := redTask_spec r hsum hle hg (Or.inl hne) m _ hm1
        refine ⟨fun b hbb => ?_, fun l _ hl => h3 l (by rw [hcc]; exact hl)⟩
        have := chunks_block hsum hle hg (fun j => m (inb, j)) hbb
        rw [← this, h1]
        have h4 := h2 b (by omega)
        simpa using h4
    · obtain ⟨hcs, hc2, _, h5⟩ := hcase.resolve_left (by omega)
      rw [if_pos h1, dif_pos (by omega)]
      have hs' := sizes_rec hs hg hc2 h1
      obtain ⟨ps, as, hp, hfr, hspec⟩ := ih g.chunks_per_block (by omega) g.chunk_count fresh outb (fresh + 1) hs' (by omega) (by omega) (by omega)
      rw [hp, alloc_ok hs hg hid hcs h1 ht ht8]
      have hbc : cdiv g.chunk_count g.chunks_per_block = cdiv size bs := by rw [hg.cc]; exact cdiv_mul_self hg.cpb
      rw [hbc] at hspec
      refine ⟨_, _, rfl, ?_, fun m => ⟨⟨?_, fun m1 hm1 => ?_⟩, ?_⟩⟩
      · intro a ha
        rcases List.mem_cons.1 ha with rfl | ha
        · exact le_refl _
        · have := hfr a ha; omega
      · refine redTask_safe r hsum hle hg (Or.inl (by omega)) m (fun j hj => Or.inl ⟨rfl, rfl, hj⟩) (fun i hi => Or.inr (Or.inr ?_))
        exact ⟨_, List.mem_cons_self, rfl, hi⟩
      · refine safe_mono ?_ (hspec m1).1
        rintro b l (⟨h1, h2, h3⟩ | h | ⟨a, ha, h⟩)
        · exact Or.inr (Or.inr ⟨_, List.mem_cons_self, h2, h3⟩)
        · exact Or.inr (Or.inl h)
        · exact Or.inr (Or.inr ⟨a, List.mem_cons_of_mem _ ha, h⟩)
      · rintro m' ⟨m1, hm1, hm'⟩
        obtain ⟨h2, h3⟩ := redTask_spec r hsum hle hg (Or.inl (show inb ≠ fresh by omega)) m _ hm1
        obtain ⟨h4, h6⟩ := (hspec m1).2 m' hm'
        refine ⟨fun b hbb => ?_, fun l hl1 hl2 => ?_⟩
        · rw [← chunks_block hsum hle hg (fun j => m (inb, j)) hbb]
          refine (h4 b hbb).subst ?_
          have hbm : (b + 1) * g.chunks_per_block ≤ g.chunk_count := by
            rw [hg.cc]; exact Nat.mul_le_mul_right _ hbb
          rw [Nat.add_mul] at hbm
          unfold blockOf
          rw [show min (b * g.chunks_per_block + g.chunks_per_block) g.chunk_count = b * g.chunks_per_block + g.chunks_per_block by omega,
            slice_map_range, List.forall₂_map_left_iff, List.forall₂_map_right_iff]
          rw [List.forall₂_same]
          intro c hc
          rw [List.mem_range] at hc
          exact h2 _ (by omega)
        · rw [h6 l (by omega) hl2, h3]
          rintro ⟨h, _⟩
          omega

end

end Verif.Llvm
