import Verif.Llvm.BlockReduce
import Mathlib.Data.List.Perm.Basic

/-!
# C23: block prefix reductions (`LLVMThreadState::block_prefix_reduce`, `/repo/src/llvm_ts.cpp:352-455`)
-/
namespace Verif.Llvm

open Verif.Par
open scoped List

variable {T A : Type}

/-! ### Model -/

/-- One chunk of a prefix reduction, forward (llvm_red.h:146-160) -/
def scanFwd (r : Red T A) (exclusive : Bool) (inb outb start stop : Nat) (accum : A) : Prog Loc T A :=
  Prog.loop (stop - start) accum fun k accum =>
    (Prog.get (inb, start + k)).bind fun x =>
    (Prog.put (outb, start + k) (r.ofV (if exclusive then accum else r.op accum (r.toV x)))).bind fun _ =>
    .pure (r.op accum (r.toV x))

/-- One chunk of a prefix reduction, from the end (llvm_red.h:161-171): iteration number `k` handles
element `stop - k - 1` -/
def scanRev (r : Red T A) (exclusive : Bool) (inb outb start stop : Nat) (accum : A) : Prog Loc T A :=
  Prog.loop (stop - start) accum fun k accum =>
    (Prog.get (inb, stop - k - 1)).bind fun x =>
    (Prog.put (outb, stop - k - 1) (r.ofV (if exclusive then accum else r.op accum (r.toV x)))).bind fun _ =>
    .pure (r.op accum (r.toV x))

/-- Initial value of the accumulator (llvm_red.h:146-150) -/
def scanInit (r : Red T A) (scratch : Option Nat) (i : Nat) : Prog Loc T A :=
  scratch.elim (.pure r.e) fun sb => (Prog.get (sb, i)).bind fun x => .pure (r.toV x)

/-- Task of a prefix reduction (`create_block_prefix_reduction_2`, llvm_red.h:119-175) -/
def prefixTask (r : Red T A) (g : Geo) (size block_size : Nat) (exclusive reverse : Bool) (inb : Nat) (scratch : Option Nat) (outb index : Nat) :
    Prog Loc T Unit :=
  forLt (unitRange g index).1 (unitRange g index).2 fun i =>
    let c := chunkRange g size block_size i
    (scanInit r scratch i).bind fun accum =>
    ((if reverse then scanRev else scanFwd) r exclusive inb outb c.1 c.2 accum).bind fun _ => .pure ()

/-- `memset_async` of `n` elements (llvm_ts.cpp:203-255): a single task -/
def fillTask (n outb : Nat) (v : T) (_index : Nat) : Prog Loc T Unit :=
  forLt 0 n fun i => Prog.put (outb, i) v

/-- A submission and an allocation before a plan, another submission after it -/
def Plan.wrap (p : Phase Loc T) (a : Nat × Nat) (last : Phase Loc T) : Plan T → Plan T
  | .ok ps as => .ok (p :: ps ++ [last]) (a :: as)
  | q => q

/-- `LLVMThreadState::block_prefix_reduce` (llvm_ts.cpp:352-455); `ident` is
`jitc_reduce_identity(vt, op)`.  The copy in line 371 is computed with 32 bits. -/
def blockPrefix (r : Red T A) (ident : T) (tsize workers ideal size block_size : Nat) (exclusive reverse : Bool) (inb outb fresh : Nat) : Plan T :=
  if size = 0 then .ok [] []
  else if block_size = 0 ∨ block_size > size then .raise
  else if block_size = 1 then
    if exclusive then .ok [(1, fillTask size outb ident)] []
    else if inb ≠ outb then .ok [(1, copyTask (mul32 size tsize / tsize) inb outb)] []
    else .ok [] []
  else (geometry workers ideal size block_size).elim .divZero fun g =>
    if g.chunks_per_block > 1 then
      if _h : g.chunks_per_block < block_size then
        Plan.wrap (g.work_units, redTask r g size block_size inb fresh) (fresh, mul32 tsize g.chunk_count / tsize)
          (g.work_units, prefixTask r g size block_size exclusive reverse inb (some fresh) outb)
          (blockPrefix r ident tsize workers ideal g.chunk_count g.chunks_per_block true reverse fresh fresh (fresh + 1))
      else .diverge
    else .ok [(g.work_units, prefixTask r g size block_size exclusive reverse inb none outb)] []
termination_by block_size

/-! ### Specification -/

/-- The elements that contribute to position `j`: those of its block that precede it (or follow it,
if `reverse`), without `j` itself if `exclusive` -/
def scanList (reverse exclusive : Bool) (f : Nat → T) (size block_size j : Nat) : List T :=
  if reverse then slice f (if exclusive then j + 1 else j) (min (j / block_size * block_size + block_size) size)
  else slice f (j / block_size * block_size) (if exclusive then j else j + 1)

/-- `t` is a reduction of `l`; if `anyOrder`, the elements may be taken in any order -/
def ResultIn (r : Red T A) (anyOrder : Bool) (l : List T) (t : T) : Prop :=
  if anyOrder then ∃ l', l'.Perm l ∧ Result r l' t else Result r l t

/-! ### Accumulators -/

/-- Like `ResultIn`, for accumulators -/
def CombinesIn (r : Red T A) (anyOrder : Bool) (l : List T) (a : A) : Prop :=
  if anyOrder then ∃ l', l'.Perm l ∧ Combines r l' a else Combines r l a

section
variable {r : Red T A} {o : Bool}

theorem CombinesIn.nil : CombinesIn r o [] r.e := by
  cases o
  · exact Combines.nil
  · exact ⟨[], .refl _, .nil⟩

theorem CombinesIn.snoc {l : List T} {a : A} (h : CombinesIn r o l a) (x : T) : CombinesIn r o (l ++ [x]) (r.op a (r.toV x)) := by
  cases o
  · exact Combines.app h (.one x)
  · obtain ⟨l', h1, h2⟩ := h
    exact ⟨l' ++ [x], h1.append_right _, .app h2 (.one x)⟩

theorem CombinesIn.result {l : List T} {a : A} (h : CombinesIn r o l a) : ResultIn r o l (r.ofV a) := by
  cases o
  · exact Result.red h
  · obtain ⟨l', h1, h2⟩ := h
    exact ⟨l', h1, .red h2⟩

theorem ResultIn.combines {l : List T} {t : T} (h : ResultIn r o l t) : CombinesIn r o l (r.toV t) := by
  cases o
  · exact Result.combines h
  · obtain ⟨l', h1, h2⟩ := h
    exact ⟨l', h1, h2.combines⟩

theorem CombinesIn.perm {l l' : List T} {a : A} (h : CombinesIn r true l a) (hp : l.Perm l') : CombinesIn r true l' a := by
  obtain ⟨k, h1, h2⟩ := h
  exact ⟨k, h1.trans hp, h2⟩

theorem ResultIn.perm {l l' : List T} {t : T} (h : ResultIn r true l t) (hp : l.Perm l') : ResultIn r true l' t := by
  obtain ⟨k, h1, h2⟩ := h
  exact ⟨k, h1.trans hp, h2⟩

theorem ResultIn.subst {l : List T} {t : T} (h : ResultIn r o l t) {cs : List (List T)}
    (hc : List.Forall₂ (fun c t => Result r c t) cs l) : ResultIn r o cs.flatten t := by
  cases o
  · exact Result.subst h hc
  · obtain ⟨l', h1, h2⟩ := h
    obtain ⟨k, h3, h4⟩ := List.perm_comp_forall₂ h1 hc.flip
    exact ⟨k.flatten, h4.flatten, h2.subst h3.flip⟩

end

/-! ### One chunk -/

theorem scanFwd_spec (r : Red T A) (o exclusive : Bool) {R W : Set Loc} {inb outb start stop : Nat} {l0 : List T} {a : A} {m : Loc → T} {f : Nat → T}
    (hR : cells inb start stop ⊆ R) (hW : cells outb start stop ⊆ W) (hm : ∀ j, start ≤ j → j < stop → m (inb, j) = f j)
    (ha : CombinesIn r o l0 a) :
    wp R W (scanFwd r exclusive inb outb start stop a) m (fun _ m' => ∀ j, start ≤ j → j < stop →
      ResultIn r o (l0 ++ slice f start (if exclusive then j else j + 1)) (m' (outb, j))) := by
  unfold scanFwd
  refine wp_mono (wp_loop (fun k a m' => CombinesIn r o (l0 ++ slice f start (start + k)) a ∧
    (∀ j, start ≤ j → j < start + k → ResultIn r o (l0 ++ slice f start (if exclusive then j else j + 1)) (m' (outb, j))) ∧
    ∀ j, start + k ≤ j → j < stop → m' (inb, j) = f j) ?_ ?_) ?_
  · refine ⟨?_, fun j h1 h2 => by omega, fun j h1 h2 => hm j (by omega) h2⟩
    rw [slice_self _ (by omega), List.append_nil]; exact ha
  · rintro k a m1 hk ⟨h1, h2, h3⟩
    rw [wp_bind]
    refine wp_get (hR ⟨rfl, by simp only; omega, by simp only; omega⟩) ?_
    rw [wp_bind]
    refine wp_put (hW ⟨rfl, by simp only; omega, by simp only; omega⟩) ?_
    have hx : m1 (inb, start + k) = f (start + k) := h3 _ (le_refl _) (by omega)
    have hsl : l0 ++ slice f start (start + (k + 1)) = l0 ++ slice f start (start + k) ++ [f (start + k)] := by
      rw [← Nat.add_assoc, slice_succ _ (by omega), List.append_assoc]
    refine ⟨?_, fun j hj1 hj2 => ?_, fun j hj1 hj2 => ?_⟩
    · rw [hx, hsl]; exact h1.snoc _
    · by_cases e : j = start + k
      · subst e
        simp only [upd, if_true]
        cases exclusive
        · simp only [Bool.false_eq_true, if_false]
          rw [Nat.add_assoc, hsl, hx]; exact (h1.snoc _).result
        · simp only [if_true]; exact h1.result
      · have hne : (outb, j) ≠ (outb, start + k) := fun h => e (congrArg Prod.snd h)
        simp only [upd, if_neg hne]
        exact h2 j hj1 (by omega)
    · have hne : (inb, j) ≠ (outb, start + k) := fun h => by have := congrArg Prod.snd h; simp only at this; omega
      simp only [upd, if_neg hne]
      exact h3 j (by omega) hj2
  · rintro _ m' ⟨_, h2, _⟩ j hj1 hj2
    exact h2 j hj1 (by omega)

theorem scanRev_spec (r : Red T A) (exclusive : Bool) {R W : Set Loc} {inb outb start stop : Nat} {l0 : List T} {a : A} {m : Loc → T} {f : Nat → T}
    (hR : cells inb start stop ⊆ R) (hW : cells outb start stop ⊆ W) (hm : ∀ j, start ≤ j → j < stop → m (inb, j) = f j)
    (ha : CombinesIn r true l0 a) :
    wp R W (scanRev r exclusive inb outb start stop a) m (fun _ m' => ∀ j, start ≤ j → j < stop →
      ResultIn r true (slice f (if exclusive then j + 1 else j) stop ++ l0) (m' (outb, j))) := by
  unfold scanRev
  refine wp_mono (wp_loop (fun k a m' => CombinesIn r true (slice f (stop - k) stop ++ l0) a ∧
    (∀ j, stop - k ≤ j → j < stop → ResultIn r true (slice f (if exclusive then j + 1 else j) stop ++ l0) (m' (outb, j))) ∧
    ∀ j, start ≤ j → j < stop - k → m' (inb, j) = f j) ?_ ?_) ?_
  · refine ⟨?_, fun j h1 h2 => by omega, fun j h1 h2 => hm j (by omega) (by omega)⟩
    rw [slice_self _ (by omega)]; exact ha
  · rintro k a m1 hk ⟨h1, h2, h3⟩
    rw [wp_bind]
    refine wp_get (hR ⟨rfl, by simp only; omega, by simp only; omega⟩) ?_
    rw [wp_bind]
    refine wp_put (hW ⟨rfl, by simp only; omega, by simp only; omega⟩) ?_
    have hx : m1 (inb, stop - k - 1) = f (stop - k - 1) := h3 _ (by omega) (by omega)
    have hsl : slice f (stop - k) stop ++ l0 ++ [f (stop - k - 1)] ~ slice f (stop - k - 1) stop ++ l0 := by
      have e : slice f (stop - k - 1) stop = f (stop - k - 1) :: slice f (stop - k) stop := by
        have := slice_succ f (le_refl (stop - k - 1))
        rw [slice_self _ (le_refl _), List.nil_append, show stop - k - 1 + 1 = stop - k by omega] at this
        rw [← slice_append f (show stop - k - 1 ≤ stop - k by omega) (show stop - k ≤ stop by omega), this]
        rfl
      rw [e]
      exact List.perm_append_comm
    have hnew : CombinesIn r true (slice f (stop - k - 1) stop ++ l0) (r.op a (r.toV (f (stop - k - 1)))) := (h1.snoc _).perm hsl
    refine ⟨?_, fun j hj1 hj2 => ?_, fun j hj1 hj2 => ?_⟩
    · rw [hx]; exact hnew
    · by_cases e : j = stop - k - 1
      · subst e
        simp only [upd, if_true]
        cases exclusive
        · simp only [Bool.false_eq_true, if_false]
          rw [hx]; exact hnew.result
        · simp only [if_true]
          rw [show stop - k - 1 + 1 = stop - k by omega]; exact h1.result
      · have hne : (outb, j) ≠ (outb, stop - k - 1) := fun h => e (congrArg Prod.snd h)
        simp only [upd, if_neg hne]
        exact h2 j (by omega) hj2
    · have hne : (inb, j) ≠ (outb, stop - k - 1) := fun h => by have := congrArg Prod.snd h; simp only at this; omega
      simp only [upd, if_neg hne]
      exact h3 j (by omega) (by omega)
  · rintro _ m' ⟨_, h2, _⟩ j hj1 hj2
    exact h2 j (by omega) hj2

/-! ### All chunks -/

section
variable {g : Geo} {size bs : Nat}

/-- The elements of the block before (or after) chunk `i` -/
def prior (reverse : Bool) (f : Nat → T) (g : Geo) (size bs i : Nat) : List T :=
  if reverse then slice f (chunkRange g size bs i).2 (min (i / g.chunks_per_block * bs + bs) size)
  else slice f (i / g.chunks_per_block * bs) (chunkRange g size bs i).1

theorem chunk_facts (hsum : size + bs ≤ 2 ^ 32) (hle : bs ≤ size) (hg : g.Ok size bs) {i : Nat} (hi : i < g.chunk_count) {j : Nat}
    (h1 : (chunkRange g size bs i).1 ≤ j) (h2 : j < (chunkRange g size bs i).2) :
    j < size ∧ j / bs = i / g.chunks_per_block ∧ (j % bs) / g.chunk_size = i % g.chunks_per_block := by
  obtain ⟨e, hb, hc⟩ := chunkRange_eq hsum hle hg hi
  rw [e] at h1 h2
  simp only at h1 h2
  generalize i / g.chunks_per_block = b at *
  generalize i % g.chunks_per_block = c at *
  have hbs : 0 < bs := lt_of_lt_of_le hg.cs hg.cs_le
  have hd : j / bs = b := by rw [Nat.div_eq_iff hbs]; omega
  refine ⟨by omega, hd, ?_⟩
  have hm := Nat.div_add_mod j bs
  rw [hd, Nat.mul_comm] at hm
  rw [Nat.div_eq_iff hg.cs]
  omega

theorem chunk_inj (hsum : size + bs ≤ 2 ^ 32) (hle : bs ≤ size) (hg : g.Ok size bs) {i i' : Nat} (hi : i < g.chunk_count) (hi' : i' < g.chunk_count) {j : Nat}
    (h1 : (chunkRange g size bs i).1 ≤ j) (h2 : j < (chunkRange g size bs i).2)
    (h3 : (chunkRange g size bs i').1 ≤ j) (h4 : j < (chunkRange g size bs i').2) : i = i' := by
  obtain ⟨_, a, b⟩ := chunk_facts hsum hle hg hi h1 h2
  obtain ⟨_, c, d⟩ := chunk_facts hsum hle hg hi' h3 h4
  rw [← Nat.div_add_mod i g.chunks_per_block, ← Nat.div_add_mod i' g.chunks_per_block, ← a, ← b, ← c, ← d]

theorem chunk_cover (hsum : size + bs ≤ 2 ^ 32) (hle : bs ≤ size) (hg : g.Ok size bs) {j : Nat} (hj : j < size) :
    ∃ i, i < g.chunk_count ∧ (chunkRange g size bs i).1 ≤ j ∧ j < (chunkRange g size bs i).2 := by
  have hbs : 0 < bs := lt_of_lt_of_le hg.cs hg.cs_le
  have hm := Nat.div_add_mod j bs
  have hlt := Nat.mod_lt j hbs
  rw [Nat.mul_comm] at hm
  have hb : j / bs < cdiv size bs := (lt_cdiv hbs).2 (by omega)
  generalize hbg : j / bs = b at *
  generalize hrg : j % bs = q at *
  have hm2 := Nat.div_add_mod q g.chunk_size
  have hlt2 := Nat.mod_lt q hg.cs
  rw [Nat.mul_comm] at hm2
  have hc : q / g.chunk_size < g.chunks_per_block := by
    rw [Nat.div_lt_iff_lt_mul hg.cs]
    have := hg.cover
    omega
  generalize q / g.chunk_size = c at *
  have hi : b * g.chunks_per_block + c < g.chunk_count := by
    rw [hg.cc]
    have : (b + 1) * g.chunks_per_block ≤ cdiv size bs * g.chunks_per_block := Nat.mul_le_mul_right _ hb
    rw [Nat.add_mul] at this; omega
  refine ⟨b * g.chunks_per_block + c, hi, ?_⟩
  obtain ⟨e, _, _⟩ := chunkRange_eq hsum hle hg hi
  have e1 : (b * g.chunks_per_block + c) / g.chunks_per_block = b := by
    rw [Nat.mul_comm, Nat.mul_add_div hg.cpb, Nat.div_eq_of_lt (by omega), Nat.add_zero]
  have e2 : (b * g.chunks_per_block + c) % g.chunks_per_block = c := by
    rw [Nat.mul_comm, Nat.mul_add_mod, Nat.mod_eq_of_lt (by omega)]
  rw [e, e1, e2]
  simp only
  omega

/-- Value of the accumulator before chunk `i` -/
def startVal (r : Red T A) (scratch : Option Nat) (m : Loc → T) (i : Nat) : A :=
  scratch.elim r.e fun sb => r.toV (m (sb, i))

theorem scanInit_spec (r : Red T A) {R W : Set Loc} {scratch : Option Nat} {i : Nat} {m : Loc → T} {Q : A → (Loc → T) → Prop}
    (hR : ∀ sb, scratch = some sb → (sb, i) ∈ R) (h : Q (startVal r scratch m i) m) : wp R W (scanInit r scratch i) m Q := by
  cases scratch with
  | none => exact h
  | some sb =>
    simp only [scanInit, Option.elim_some]
    rw [wp_bind]
    exact wp_get (hR sb rfl) h

theorem prefix_items (r : Red T A) (hsum : size + bs ≤ 2 ^ 32) (hle : bs ≤ size) (hg : g.Ok size bs) (exclusive reverse : Bool)
    {inb outb : Nat} {scratch : Option Nat} (hs : ∀ sb, scratch = some sb → sb ≠ outb) (m0 : Loc → T)
    (ha : ∀ i, i < g.chunk_count → (chunkRange g size bs i).1 < (chunkRange g size bs i).2 →
      CombinesIn r reverse (prior reverse (fun j => m0 (inb, j)) g size bs i) (startVal r scratch m0 i)) :
    Items g.chunk_count
      (fun i => {l | l ∈ cells inb (chunkRange g size bs i).1 (chunkRange g size bs i).2 ∨ ∃ sb, scratch = some sb ∧ l = (sb, i)})
      (fun i => cells outb (chunkRange g size bs i).1 (chunkRange g size bs i).2)
      (fun i m => ∀ j, (chunkRange g size bs i).1 ≤ j → j < (chunkRange g size bs i).2 →
        ResultIn r reverse (scanList reverse exclusive (fun j => m0 (inb, j)) size bs j) (m (outb, j))) m0
      (fun i =>
        let c := chunkRange g size bs i
        (scanInit r scratch i).bind fun accum =>
        ((if reverse then scanRev else scanFwd) r exclusive inb outb c.1 c.2 accum).bind fun _ => .pure ()) := by
  refine ⟨?_, ?_, ?_⟩
  · rintro i j hi hj hij ⟨b, q⟩ ⟨h1, h2, h3⟩
    simp only at h1 h2 h3
    subst h1
    refine ⟨?_, ?_⟩
    · rintro (⟨_, h5, h6⟩ | ⟨sb, h4, h5⟩)
      · exact hij (chunk_inj hsum hle hg hi hj h2 h3 h5 h6)
      · exact hs sb h4 (congrArg Prod.fst h5).symm
    · rintro ⟨_, h5, h6⟩
      exact hij (chunk_inj hsum hle hg hi hj h2 h3 h5 h6)
  · intro i m m' hi h hp j h1 h2
    rw [h (outb, j) ⟨rfl, h1, h2⟩]; exact hp j h1 h2
  · intro i m hi hm
    dsimp only
    rw [wp_bind]
    apply scanInit_spec
    · intro sb hsb; exact Or.inr ⟨sb, hsb, rfl⟩
    rw [wp_bind]
    have hst : startVal r scratch m i = startVal r scratch m0 i := by
      cases scratch with
      | none => rfl
      | some sb =>
        simp only [startVal, Option.elim_some]
        rw [hm (sb, i) (Or.inl (Or.inr ⟨sb, rfl, rfl⟩))]
    rw [hst]
    have hmin : ∀ j, (chunkRange g size bs i).1 ≤ j → j < (chunkRange g size bs i).2 → m (inb, j) = m0 (inb, j) :=
      fun j h1 h2 => hm _ (Or.inl (Or.inl ⟨rfl, h1, h2⟩))
    obtain ⟨e, _, _⟩ := chunkRange_eq hsum hle hg hi
    by_cases hlt : (chunkRange g size bs i).1 < (chunkRange g size bs i).2
    · have ha' := ha i hi hlt
      cases reverse
      · simp only [Bool.false_eq_true, if_false]
        refine wp_mono (scanFwd_spec r false exclusive (fun l hl => Or.inl hl) (fun l hl => hl) hmin ha') ?_
        intro _ m' h j h1 h2
        have := h j h1 h2
        obtain ⟨_, hd, _⟩ := chunk_facts hsum hle hg hi h1 h2
        unfold scanList
        unfold prior at this
        simp only [Bool.false_eq_true, if_false] at this ⊢
        rw [hd, ← slice_append (mid := (chunkRange g size bs i).1) _ (by rw [e]; simp only; omega) (by split <;> omega)]
        exact this
      · simp only [if_true]
        refine wp_mono (scanRev_spec r exclusive (fun l hl => Or.inl hl) (fun l hl => hl) hmin ha') ?_
        intro _ m' h j h1 h2
        have := h j h1 h2
        obtain ⟨_, hd, _⟩ := chunk_facts hsum hle hg hi h1 h2
        unfold scanList
        unfold prior at this
        simp only [if_true] at this ⊢
        rw [hd, ← slice_append (mid := (chunkRange g size bs i).2) _ (by split <;> omega) (by rw [e]; simp only; omega)]
        exact this
    · have : (chunkRange g size bs i).2 - (chunkRange g size bs i).1 = 0 := by omega
      cases reverse
      · simp only [Bool.false_eq_true, if_false, scanFwd, this]
        intro j h1 h2; omega
      · simp only [if_true, scanRev, this]
        intro j h1 h2; omega

theorem prefixTask_spec (r : Red T A) (hsum : size + bs ≤ 2 ^ 32) (hle : bs ≤ size) (hg : g.Ok size bs) (exclusive reverse : Bool)
    {inb outb : Nat} {scratch : Option Nat} (hs : ∀ sb, scratch = some sb → sb ≠ outb) (m m' : Loc → T)
    (ha : ∀ i, i < g.chunk_count → (chunkRange g size bs i).1 < (chunkRange g size bs i).2 →
      CombinesIn r reverse (prior reverse (fun j => m (inb, j)) g size bs i) (startVal r scratch m i))
    (h : Phase.Ends (g.work_units, prefixTask r g size bs exclusive reverse inb scratch outb) m m') :
    (∀ j, j < size → ResultIn r reverse (scanList reverse exclusive (fun j => m (inb, j)) size bs j) (m' (outb, j))) ∧
    ∀ l, l ∉ cells outb 0 size → m' l = m l := by
  obtain ⟨h1, h2⟩ := items_spec (split_units hg) (prefix_items r hsum hle hg exclusive reverse hs m ha) h
  refine ⟨fun j hj => ?_, fun l hl => h2 l ?_⟩
  · obtain ⟨i, hi, h3, h4⟩ := chunk_cover hsum hle hg hj
    exact h1 i hi j h3 h4
  · rintro i hi ⟨a, b, c⟩
    exact hl ⟨a, Nat.zero_le _, lt_of_lt_of_le c chunk_le⟩

theorem prefixTask_safe (r : Red T A) (hsum : size + bs ≤ 2 ^ 32) (hle : bs ≤ size) (hg : g.Ok size bs) (exclusive reverse : Bool)
    {inb outb : Nat} {scratch : Option Nat} (hs : ∀ sb, scratch = some sb → sb ≠ outb) (m : Loc → T)
    (ha : ∀ i, i < g.chunk_count → (chunkRange g size bs i).1 < (chunkRange g size bs i).2 →
      CombinesIn r reverse (prior reverse (fun j => m (inb, j)) g size bs i) (startVal r scratch m i))
    {ok : Bool → Loc → Prop} (hr : ∀ j, j < size → ok false (inb, j)) (hw : ∀ j, j < size → ok true (outb, j))
    (hsr : ∀ sb i, scratch = some sb → i < g.chunk_count → ok false (sb, i)) :
    Phase.Safe (g.work_units, prefixTask r g size bs exclusive reverse inb scratch outb) ok m := by
  refine items_safe (split_units hg) (prefix_items r hsum hle hg exclusive reverse hs m ha) ?_ ?_
  · rintro i hi ⟨b, j⟩ (⟨h1, h2, h3⟩ | ⟨sb, h1, h2⟩)
    · simp only at h1 h3
      subst h1
      exact hr j (lt_of_lt_of_le h3 chunk_le)
    · rw [h2]; exact hsr sb i h1 hi
  · rintro i hi ⟨b, j⟩ ⟨h1, h2, h3⟩
    simp only at h1 h3
    subst h1
    exact hw j (lt_of_lt_of_le h3 chunk_le)

/-! ### The recursion -/

theorem forall₂_slice {X Y : Type} {P : X → Y → Prop} {f : Nat → X} {h : Nat → Y} {lo hi : Nat}
    (hp : ∀ j, lo ≤ j → j < hi → P (f j) (h j)) : List.Forall₂ P (slice f lo hi) (slice h lo hi) := by
  unfold slice
  rw [List.forall₂_map_left_iff, List.forall₂_map_right_iff, List.forall₂_same]
  intro k hk
  rw [List.mem_range] at hk
  exact hp _ (by omega) (by omega)

/-- Prefix reduction of the partial results -/
theorem prior_ok (r : Red T A) (hsum : size + bs ≤ 2 ^ 32) (hle : bs ≤ size) (hg : g.Ok size bs) (reverse : Bool) (f s : Nat → T)
    (hs : ∀ i, i < g.chunk_count → Result r (chunkOf f g size bs i) (s i)) {i : Nat} (hi : i < g.chunk_count) {t : T}
    (ht : ResultIn r reverse (scanList reverse true s g.chunk_count g.chunks_per_block i) t)
    (hlt : (chunkRange g size bs i).1 < (chunkRange g size bs i).2) :
    CombinesIn r reverse (prior reverse f g size bs i) (r.toV t) := by
  obtain ⟨e, hb, _⟩ := chunkRange_eq hsum hle hg hi
  have hm := Nat.div_add_mod i g.chunks_per_block
  rw [Nat.mul_comm] at hm
  have hc := Nat.mod_lt i hg.cpb
  have hfull : (i / g.chunks_per_block + 1) * g.chunks_per_block ≤ g.chunk_count := by
    rw [hg.cc]; exact Nat.mul_le_mul_right _ hb
  rw [Nat.add_mul, Nat.one_mul] at hfull
  have hbefore := chunks_before hsum hle hg f hb
  generalize i / g.chunks_per_block = b at *
  generalize hcc : i % g.chunks_per_block = c at *
  have h0 : ∀ k, k ≤ g.chunks_per_block → (slice (chunkOf f g size bs) (b * g.chunks_per_block) (b * g.chunks_per_block + k)).flatten
      = slice f (b * bs) (min (b * bs + min (k * g.chunk_size) bs) size) := by
    intro k hk; rw [slice_map_range]; exact hbefore k hk
  refine ResultIn.combines ?_
  have hib : i / g.chunks_per_block = b := by rw [Nat.div_eq_iff hg.cpb]; omega
  cases reverse
  · unfold scanList at ht
    unfold prior
    simp only [Bool.false_eq_true, if_false, if_true] at ht ⊢
    rw [hib] at ht ⊢
    have := ht.subst (cs := slice (chunkOf f g size bs) (b * g.chunks_per_block) i)
      (forall₂_slice fun j _ h2 => hs j (by omega))
    rw [show i = b * g.chunks_per_block + c by omega, h0 c (by omega)] at this
    rw [e] at hlt ⊢
    simp only at hlt ⊢
    rw [show min (b * bs + min (c * g.chunk_size) bs) size = b * bs + c * g.chunk_size by omega] at this
    exact this
  · unfold scanList at ht
    unfold prior
    simp only [if_true] at ht ⊢
    rw [hib] at ht ⊢
    rw [show min (b * g.chunks_per_block + g.chunks_per_block) g.chunk_count = b * g.chunks_per_block + g.chunks_per_block by omega] at ht
    have := ht.subst (cs := slice (chunkOf f g size bs) (i + 1) (b * g.chunks_per_block + g.chunks_per_block))
      (forall₂_slice fun j _ h2 => hs j (by omega))
    have e1 := h0 (c + 1) (by omega)
    have e2 := h0 g.chunks_per_block (le_refl _)
    rw [← slice_append (mid := i + 1) _ (by omega) (by omega), List.flatten_append,
      show i + 1 = b * g.chunks_per_block + (c + 1) by omega, e1, Nat.add_mul, Nat.one_mul,
      ← slice_append (mid := min (b * bs + min (c * g.chunk_size + g.chunk_size) bs) size) (hi := min (b * bs + min (g.chunks_per_block * g.chunk_size) bs) size) f
        (by rw [e] at hlt; simp only at hlt; omega)
        (by have : (c + 1) * g.chunk_size ≤ g.chunks_per_block * g.chunk_size := Nat.mul_le_mul_right _ hc
            rw [Nat.add_mul] at this; omega)] at e2
    have e3 := List.append_cancel_left e2
    rw [show i + 1 = b * g.chunks_per_block + (c + 1) by omega, e3] at this
    rw [e]
    simp only
    have := hg.cover
    rw [show min (g.chunks_per_block * g.chunk_size) bs = bs by omega] at *
    assumption

/-- With one chunk per block -/
theorem prior_one (hsum : size + bs ≤ 2 ^ 32) (hle : bs ≤ size) (hg : g.Ok size bs) (h1 : g.chunks_per_block = 1) (reverse : Bool) (f : Nat → T)
    {i : Nat} (hi : i < g.chunk_count) : prior reverse f g size bs i = [] := by
  obtain ⟨e, hb, _⟩ := chunkRange_eq hsum hle hg hi
  have hcov := hg.cover
  unfold prior
  rw [e, h1, Nat.mod_one, Nat.zero_mul, Nat.zero_add]
  rw [h1, Nat.one_mul] at hcov
  cases reverse
  · simp
  · simp only [if_true]
    apply slice_self
    omega

end

theorem blockPrefix_rec (r : Red T A) (ident : T) (tsize workers : Nat) {ideal : Nat} (hid : 16 ≤ ideal) (ht : 1 ≤ tsize) (ht8 : tsize ≤ 8)
    (reverse : Bool) : ∀ (bs size : Nat) (exclusive : Bool) (inb outb fresh : Nat), SizesOk ideal size bs → inb < fresh → outb < fresh →
    ∃ ps as, blockPrefix r ident tsize workers ideal size bs exclusive reverse inb outb fresh = .ok ps as ∧ (∀ a, a ∈ as → fresh ≤ a.1) ∧
      ∀ m, Safe (InBounds inb size outb size as) ps m ∧
        ∀ m', Ends ps m m' →
          (∀ j, j < size → ResultIn r reverse (scanList reverse exclusive (fun j => m (inb, j)) size bs j) (m' (outb, j))) ∧
          ∀ l, l.1 < fresh → l ∉ cells outb 0 size → m' l = m l := by
  intro bs
  induction bs using Nat.strong_induction_on with
  | _ bs ih =>
    intro size exclusive inb outb fresh hs hinf houtf
    obtain ⟨g, hgeo, hg, hcase⟩ := geometry_ok (workers := workers) hs
    have hb := hs.bs
    have hle := hs.le
    have hsum := hs.sum
    rw [blockPrefix, if_neg (by omega), if_neg (by omega), if_neg (by omega), hgeo, Option.elim_some]
    have hfin : g.chunks_per_block = 1 ∨ 1 < g.chunks_per_block := by have := hg.cpb; omega
    rcases hfin with h1 | h1
    · rw [if_neg (by omega)]
      have ha : ∀ (m : Loc → T) i, i < g.chunk_count → (chunkRange g size bs i).1 < (chunkRange g size bs i).2 →
          CombinesIn r reverse (prior reverse (fun j => m (inb, j)) g size bs i) (startVal r none m i) := by
        intro m i hi _
        rw [prior_one hsum hle hg h1 reverse _ hi]; exact .nil
      refine ⟨_, _, rfl, by simp, fun m => ⟨⟨?_, fun _ _ => trivial⟩, ?_⟩⟩
      · exact prefixTask_safe r hsum hle hg exclusive reverse (fun _ h => by cases h) m (ha m) (fun j hj => Or.inl ⟨rfl, rfl, hj⟩)
          (fun i hi => Or.inr (Or.inl ⟨rfl, hi⟩)) (fun _ _ h => by cases h)
      · rintro m' ⟨m1, hm1, rfl⟩
        obtain ⟨h2, h3⟩ := prefixTask_spec r hsum hle hg exclusive reverse (fun _ h => by cases h) m _ (ha m) hm1
        exact ⟨h2, fun l _ hl => h3 l hl⟩
    · obtain ⟨hcs, hc2, _, h5⟩ := hcase.resolve_left (by omega)
      rw [if_pos h1, dif_pos (by omega)]
      have hs' := sizes_rec hs hg hc2 h1
      obtain ⟨ps, as, hp, hfr, hspec⟩ := ih g.chunks_per_block (by omega) g.chunk_count true fresh fresh (fresh + 1) hs' (by omega) (by omega)
      rw [hp, alloc_ok hs hg hid hcs h1 ht ht8]
      -- the state before the last submission
      have hlast : ∀ m m1 m2 : Loc → T, Phase.Ends (g.work_units, redTask r g size bs inb fresh) m m1 → Ends ps m1 m2 →
          (∀ i, i < g.chunk_count → (chunkRange g size bs i).1 < (chunkRange g size bs i).2 →
            CombinesIn r reverse (prior reverse (fun j => m2 (inb, j)) g size bs i) (startVal r (some fresh) m2 i)) ∧
          (∀ l, l.1 < fresh → m2 l = m l) := by
        intro m m1 m2 hm1 hm2
        obtain ⟨h2, h3⟩ := redTask_spec r hsum hle hg (Or.inl (show inb ≠ fresh by omega)) m _ hm1
        obtain ⟨h4, h6⟩ := (hspec m1).2 m2 hm2
        have hsame : ∀ l, l.1 < fresh → m2 l = m l := by
          intro l hl
          rw [h6 l (by omega) (fun h => by have := h.1; omega), h3 l (fun h => by have := h.1; omega)]
        refine ⟨fun i hi hlt => ?_, hsame⟩
        have hf : (fun j => m2 (inb, j)) = (fun j => m (inb, j)) := by
          funext j; exact hsame _ hinf
        rw [hf]
        exact prior_ok r hsum hle hg reverse _ (fun i => m1 (fresh, i)) h2 hi (h4 i hi) hlt
      refine ⟨_, _, rfl, ?_, fun m => ⟨?_, ?_⟩⟩
      · intro a ha
        rcases List.mem_cons.1 ha with rfl | ha
        · exact le_refl _
        · have := hfr a ha; omega
      · rw [List.cons_append]
        refine ⟨?_, fun m1 hm1 => ?_⟩
        · refine redTask_safe r hsum hle hg (Or.inl (by omega)) m (fun j hj => Or.inl ⟨rfl, rfl, hj⟩) (fun i hi => Or.inr (Or.inr ?_))
          exact ⟨_, List.mem_cons_self, rfl, hi⟩
        · rw [safe_append]
          refine ⟨safe_mono ?_ (hspec m1).1, fun m2 hm2 => ⟨?_, fun _ _ => trivial⟩⟩
          · rintro b l (⟨h1, h2, h3⟩ | h | ⟨a, ha, h⟩)
            · exact Or.inr (Or.inr ⟨_, List.mem_cons_self, h2, h3⟩)
            · exact Or.inr (Or.inr ⟨_, List.mem_cons_self, h⟩)
            · exact Or.inr (Or.inr ⟨a, List.mem_cons_of_mem _ ha, h⟩)
          · refine prefixTask_safe r hsum hle hg exclusive reverse (fun sb h => ?_) m2 (hlast m m1 m2 hm1 hm2).1 (fun j hj => Or.inl ⟨rfl, rfl, hj⟩)
              (fun i hi => Or.inr (Or.inl ⟨rfl, hi⟩)) (fun sb i h hi => Or.inr (Or.inr ?_))
            · cases h; omega
            · cases h; exact ⟨_, List.mem_cons_self, rfl, hi⟩
      · intro m' hm'
        rw [List.cons_append] at hm'
        obtain ⟨m1, hm1, hm'⟩ := hm'
        rw [ends_append] at hm'
        obtain ⟨m2, hm2, m3, hm3, rfl⟩ := hm'
        obtain ⟨hl1, hl2⟩ := hlast m m1 m2 hm1 hm2
        obtain ⟨h2, h3⟩ := prefixTask_spec r hsum hle hg exclusive reverse (fun sb h => by cases h; omega) m2 _ hl1 hm3
        have hf : (fun j => m2 (inb, j)) = (fun j => m (inb, j)) := by
          funext j; exact hl2 _ hinf
        rw [hf] at h2
        exact ⟨h2, fun l h4 h5 => by rw [h3 l h5, hl2 l h4]⟩

end Verif.Llvm
