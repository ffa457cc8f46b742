import Verif.Llvm.Split
import Verif.Llvm.ReduceProps

/-!
# C77: dot products (`LLVMThreadState::reduce_dot`, `/repo/src/llvm_ts.cpp:479-519`)
-/
namespace Verif.Llvm

open Verif.Par

variable {T A : Type}

/-! ### Model -/

/-- The function created by `reduce_dot_create` (llvm_red.h:227-240), called by llvm_ts.cpp:503-508 for block `index`.  `fma`: `std::fma` and the conversion
of its result to the element type -/
def dotTask (fma : T → T → T → T) (zero : T) (tsize bs size a b target index : Nat) : Prog Loc T Unit :=
  (foldNe (splitRange' bs size index).1 (splitRange' bs size index).2 zero fun i result =>
    (Prog.get (a, i)).bind fun x => (Prog.get (b, i)).bind fun y => .pure (fma x y result)).bind fun result =>
  Prog.put (target, mul32 index tsize / tsize) result

/-- `LLVMThreadState::reduce_dot` (llvm_ts.cpp:479-519).  `r`: the addition of `block_reduce`. -/
def reduceDot (fma : T → T → T → T) (zero : T) (r : Red T A) (tsize workers ideal size a b outb fresh : Nat) : Plan T :=
  let p := poolSplit workers ideal size
  if p.2 > 1 then
    Plan.cons (max 1 p.2, dotTask fma zero tsize p.1 size a b fresh) (fresh, mul32 p.2 tsize / tsize)
      (blockReduce r tsize workers ideal p.2 p.2 fresh outb (fresh + 1))
  else .ok [(max 1 p.2, dotTask fma zero tsize p.1 size a b outb)] []

/-! ### Specification -/

/-- Fused multiply-adds of a list of pairs, from left to right -/
inductive Chain (fma : T → T → T → T) (zero : T) : List (T × T) → T → Prop
  | nil : Chain fma zero [] zero
  | snoc {l : List (T × T)} {s : T} (x y : T) : Chain fma zero l s → Chain fma zero (l ++ [(x, y)]) (fma x y s)

/-- `t` is a dot product of the pairs `l`: the list is divided into consecutive parts, which are processed by fused multiply-adds, and the results
are added, in this order, with any bracketing. -/
def IsDot (fma : T → T → T → T) (zero : T) (r : Red T A) (l : List (T × T)) (t : T) : Prop :=
  ∃ cs ts, cs.flatten = l ∧ List.Forall₂ (Chain fma zero) cs ts ∧ Result r ts t

/-- Accesses within bounds: the operands are only read; the result has one element; temporary buffers have the size that was allocated. -/
def DotBounds (a b size outb : Nat) (allocs : List (Nat × Nat)) (write : Bool) (l : Loc) : Prop :=
  (write = false ∧ (l.1 = a ∨ l.1 = b) ∧ l.2 < size) ∨ (l.1 = outb ∧ l.2 < 1) ∨ ∃ x, x ∈ allocs ∧ l.1 = x.1 ∧ l.2 < x.2

/-! ### Proofs -/

section
variable {fma : T → T → T → T} {zero : T} {tsize bs size a b target : Nat}

theorem dotTask_wp {index lo hi : Nat} (hr : splitRange' bs size index = (lo, hi)) (hlo : lo ≤ hi) (hhi : hi < 2 ^ 32) (hi' : mul32 index tsize / tsize = index)
    (m : Loc → T) :
    wp {l | (l.1 = a ∨ l.1 = b) ∧ lo ≤ l.2 ∧ l.2 < hi} {l | l = (target, index)} (dotTask fma zero tsize bs size a b target index) m fun _ m' =>
      Chain fma zero (slice (fun j => (m (a, j), m (b, j))) lo hi) (m' (target, index)) := by
  unfold dotTask
  rw [hr, wp_bind, foldNe_eq _ _ hlo hhi, hi']
  refine wp_mono (wp_loop (fun k s m' => m' = m ∧ Chain fma zero (slice (fun j => (m (a, j), m (b, j))) lo (lo + k)) s) ?_ ?_) ?_
  · refine ⟨rfl, ?_⟩
    rw [slice_self _ (by omega)]; exact .nil
  · rintro k s _ hk ⟨rfl, h2⟩
    rw [wp_bind]
    refine wp_get ⟨Or.inl rfl, Nat.le_add_right _ _, by dsimp only; omega⟩ ?_
    rw [wp_bind]
    refine wp_get ⟨Or.inr rfl, Nat.le_add_right _ _, by dsimp only; omega⟩ ⟨rfl, ?_⟩
    rw [← Nat.add_assoc, slice_succ _ (Nat.le_add_right _ _)]
    exact .snoc _ _ h2
  · rintro s _ ⟨rfl, h2⟩
    refine wp_put rfl ?_
    rw [show lo + (hi - lo) = hi by omega] at h2
    simp only [upd, if_true]
    exact h2

theorem dot_phase {workers ideal : Nat} (hs : SplitOk ideal size) (hid : 16 ≤ ideal) (ht : 1 ≤ tsize) (ht8 : tsize ≤ 8) (ha : a ≠ target) (hb : b ≠ target) (m : Loc → T)
    {ok : Bool → Loc → Prop} (hr : ∀ l : Loc, (l.1 = a ∨ l.1 = b) → l.2 < size → ok false l)
    (hw : ∀ i, i < (poolSplit workers ideal size).2 → ok true (target, i)) :
    mul32 (poolSplit workers ideal size).2 tsize / tsize = (poolSplit workers ideal size).2 ∧
    Phase.Safe ((poolSplit workers ideal size).2, dotTask fma zero tsize (poolSplit workers ideal size).1 size a b target) ok m ∧
    ∀ m', Phase.Ends ((poolSplit workers ideal size).2, dotTask fma zero tsize (poolSplit workers ideal size).1 size a b target) m m' →
      (∀ t, t < (poolSplit workers ideal size).2 → Chain fma zero (slice (fun j => (m (a, j), m (b, j))) (t * (poolSplit workers ideal size).1)
        (min (t * (poolSplit workers ideal size).1 + (poolSplit workers ideal size).1) size)) (m' (target, t))) ∧
      ∀ l, (∀ t, t < (poolSplit workers ideal size).2 → l ≠ (target, t)) → m' l = m l := by
  have hf := fun t ht => poolSplit_facts (workers := workers) hs (t := t) ht
  have hsmall : (poolSplit workers ideal size).2 * 16 < 2 ^ 32 := by
    have h0 := hs.sum
    unfold poolSplit
    by_cases h : workers > 1
    · rw [if_pos h]
      dsimp only
      rw [ceilDiv32_eq (by omega) h0]
      have h1 := cdiv_mul_lt (a := size) (b := ideal) (by omega)
      have h2 : cdiv size ideal * 16 ≤ cdiv size ideal * ideal := Nat.mul_le_mul_left _ hid
      omega
    · rw [if_neg h]; norm_num
  have hsum := hs.sum
  have hidp := hs.idpos
  generalize poolSplit workers ideal size = p at *
  have hidx : ∀ t, t ≤ p.2 → mul32 t tsize / tsize = t := by
    intro t htp
    have : t * tsize ≤ t * 8 := Nat.mul_le_mul_left _ ht8
    rw [mul32_eq (by omega), Nat.mul_div_cancel _ (by omega)]
  have hd : ∀ i j, i < p.2 → j < p.2 → i ≠ j → ∀ l : Loc, l ∈ {l : Loc | l = (target, i)} →
      l ∉ {l : Loc | (l.1 = a ∨ l.1 = b) ∧ j * p.1 ≤ l.2 ∧ l.2 < min (j * p.1 + p.1) size} ∧ l ∉ {l : Loc | l = (target, j)} := by
    rintro i j hi hj hij _ rfl
    refine ⟨fun h => ?_, fun h => hij (congrArg Prod.snd (Set.mem_setOf_eq ▸ h))⟩
    rcases h.1 with h | h
    · exact ha h.symm
    · exact hb h.symm
  have hwp := fun i (hi : i < p.2) => dotTask_wp (fma := fma) (zero := zero) (a := a) (b := b) (target := target) (hf i hi).2.2.1
    (by have := (hf i hi).2.2.2; omega) (by omega) (hidx i (by omega)) m
  refine ⟨hidx _ (le_refl _), ?_, fun m' hm' => ?_⟩
  · refine phase_safe hd hwp ?_ ?_
    · rintro i hi l ⟨h1, h2, h3⟩; exact hr l h1 (by omega)
    · rintro i hi _ rfl; exact hw i hi
  · obtain ⟨h1, h2⟩ := phase_spec hd hwp hm'
    refine ⟨fun t htp => ?_, fun l hl => h2 l fun t htp h => hl t htp h⟩
    obtain ⟨mi, g1, g2, _⟩ := h1 t htp
    rw [g2 _ rfl]; exact g1

theorem flatten_blocks (f : Nat → T) (bs size : Nat) : ∀ k, k * bs < size + bs →
    ((List.range k).map fun t => slice f (t * bs) (min (t * bs + bs) size)).flatten = slice f 0 (min (k * bs) size) := by
  intro k
  induction k with
  | zero => intro _; simp
  | succ k ih =>
    intro h
    rw [Nat.add_mul] at h
    rw [List.range_succ, List.map_append, List.flatten_append, ih (by omega)]
    simp only [List.map_cons, List.map_nil, List.flatten_cons, List.flatten_nil, List.append_nil]
    rw [Nat.add_mul, Nat.one_mul, show min (k * bs) size = k * bs by omega]
    exact slice_append f (by omega) (by omega)

end

/-- **C77.**  For any two arrays of equal size and any arithmetic, number of threads and interleaving: the call succeeds, all memory accesses are within
bounds, and the result is a dot product of the arrays.  Nothing else changes. -/
theorem C77_dot_partial (fma : T → T → T → T) (zero : T) (r : Red T A) (tsize workers ideal size a b outb fresh : Nat)
    (hs : 0 < size) (hsum : size + ideal ≤ 2 ^ 32) (hid : 16 ≤ ideal) (hid' : ideal < 2 ^ 31) (ht : 1 ≤ tsize) (ht8 : tsize ≤ 8)
    (ha : a ≠ outb) (hb : b ≠ outb) (haf : a < fresh) (hbf : b < fresh) (hout : outb < fresh) :
    ∃ ps as, reduceDot fma zero r tsize workers ideal size a b outb fresh = .ok ps as ∧
      ∀ m, Safe (DotBounds a b size outb as) ps m ∧
        (∃ m', Ends ps m m') ∧
        ∀ m', Ends ps m m' →
          IsDot fma zero r (slice (fun j => (m (a, j), m (b, j))) 0 size) (m' (outb, 0)) ∧
          ∀ l : Loc, l.1 < fresh → l ≠ (outb, 0) → m' l = m l := by
  have hso : SplitOk ideal size := ⟨hs, by omega, hsum⟩
  have hlast := poolSplit_last (workers := workers) hso
  have hpos : 0 < (poolSplit workers ideal size).2 := by
    by_contra h
    rw [Nat.eq_zero_of_not_pos h, Nat.zero_mul] at hlast; omega
  have hlt : (poolSplit workers ideal size).2 * (poolSplit workers ideal size).1 < size + (poolSplit workers ideal size).1 := by
    unfold poolSplit
    by_cases h : workers > 1
    · rw [if_pos h]
      dsimp only
      rw [ceilDiv32_eq (by omega) hsum]
      exact cdiv_mul_lt (by omega)
    · rw [if_neg h]; dsimp only; omega
  have hblocks : ∀ f : Nat → T × T, ((List.range (poolSplit workers ideal size).2).map fun t => slice f (t * (poolSplit workers ideal size).1)
      (min (t * (poolSplit workers ideal size).1 + (poolSplit workers ideal size).1) size)).flatten = slice f 0 size := by
    intro f
    rw [flatten_blocks f _ _ _ hlt, show min ((poolSplit workers ideal size).2 * (poolSplit workers ideal size).1) size = size by omega]
  have hphase := fun (target : Nat) (h1 : a ≠ target) (h2 : b ≠ target) (m : Loc → T) (ok : Bool → Loc → Prop) =>
    dot_phase (fma := fma) (zero := zero) (workers := workers) hso hid ht ht8 h1 h2 m (ok := ok)
  have hbound : (poolSplit workers ideal size).2 ≤ 2 ^ 31 := by
    unfold poolSplit
    by_cases h : workers > 1
    · rw [if_pos h]
      dsimp only
      rw [ceilDiv32_eq (by omega) hsum]
      exact cdiv_le (by omega) (by
        have : 2 ^ 31 * 16 ≤ 2 ^ 31 * ideal := Nat.mul_le_mul_left _ hid
        omega)
    · rw [if_neg h]; norm_num
  unfold reduceDot
  dsimp only
  generalize poolSplit workers ideal size = p at *
  rw [show max 1 p.2 = p.2 by omega]
  by_cases h1 : p.2 > 1
  · rw [if_pos h1]
    obtain ⟨ps, as, hp, h⟩ := C22_block_reduce r tsize workers ideal p.2 p.2 fresh outb (fresh + 1) (by omega) (le_refl _) (by omega) hid hid' ht ht8
      (by omega) (by omega) (by omega)
    rw [hp]
    refine ⟨_, _, rfl, fun m => ?_⟩
    have hc : cdiv p.2 p.2 = 1 := by simpa using cdiv_mul_self (a := 1) (b := p.2) (by omega)
    rw [hc] at h
    have hph := hphase fresh (by omega) (by omega) m (DotBounds a b size outb ((fresh, mul32 p.2 tsize / tsize) :: as))
      (fun l h1 h2 => Or.inl ⟨rfl, h1, h2⟩)
    obtain ⟨e, hsafe, hends⟩ := hph (fun i hi => Or.inr (Or.inr ⟨_, List.mem_cons_self, rfl, by
      rw [(hphase fresh (by omega) (by omega) m (fun _ _ => True) (fun _ _ _ => trivial) (fun _ _ => trivial)).1]; exact hi⟩))
    refine ⟨⟨hsafe, fun m1 _ => safe_mono ?_ (h m1).1⟩, ends_exists _ _, ?_⟩
    · rintro w l (⟨h1, h2, h3⟩ | h1 | ⟨x, hx, h1⟩)
      · exact Or.inr (Or.inr ⟨_, List.mem_cons_self, h2, by rw [e]; exact h3⟩)
      · exact Or.inr (Or.inl h1)
      · exact Or.inr (Or.inr ⟨x, List.mem_cons_of_mem _ hx, h1⟩)
    · rintro m' ⟨m1, hm1, hm'⟩
      obtain ⟨g1, g2⟩ := hends m1 hm1
      obtain ⟨g3, g4⟩ := (h m1).2.2 m' hm'
      refine ⟨⟨_, (List.range p.2).map fun t => m1 (fresh, t), hblocks fun j => (m (a, j), m (b, j)), ?_, ?_⟩, fun l hl hne => ?_⟩
      · rw [List.forall₂_map_left_iff, List.forall₂_map_right_iff, List.forall₂_same]
        exact fun t ht => g1 t (List.mem_range.1 ht)
      · have := g3 0 (by omega)
        rw [show 0 * p.2 = 0 by omega, show min (0 + p.2) p.2 = 0 + p.2 by omega, slice_map_range] at this
        simpa using this
      · rw [g4 l (by omega) (fun h => hne (Prod.ext h.1 (by have := h.2; dsimp only; omega))), g2 l]
        rintro t _ rfl
        exact absurd hl (lt_irrefl _)
  · rw [if_neg h1]
    have e1 : p.2 = 1 := by omega
    refine ⟨_, _, rfl, fun m => ?_⟩
    obtain ⟨_, hsafe, hends⟩ := hphase outb ha hb m (DotBounds a b size outb []) (fun l h1 h2 => Or.inl ⟨rfl, h1, h2⟩)
      (fun i hi => Or.inr (Or.inl ⟨rfl, by dsimp only; omega⟩))
    refine ⟨⟨hsafe, fun _ _ => trivial⟩, ends_exists _ _, ?_⟩
    rintro m' ⟨m1, hm1, rfl⟩
    obtain ⟨g1, g2⟩ := hends m' hm1
    refine ⟨⟨_, (List.range p.2).map fun t => m' (outb, t), hblocks fun j => (m (a, j), m (b, j)), ?_, ?_⟩, fun l hl hne => g2 l ?_⟩
    · rw [List.forall₂_map_left_iff, List.forall₂_map_right_iff, List.forall₂_same]
      exact fun t ht => g1 t (List.mem_range.1 ht)
    · rw [e1]; exact .copy _
    · rintro t ht rfl
      exact hne (by rw [show t = 0 by omega])

/-- Fused multiply-adds without rounding errors -/
structure ExactDot (fma : T → T → T → T) (zero : T) (r : Red T A) (mul : T → T → A) : Prop extends r.Exact where
  fma_eq : ∀ x y s, r.toV (fma x y s) = r.op (r.toV s) (mul x y)
  zero_eq : r.toV zero = r.e

/-- With exact arithmetic, the result is the sum of the products. -/
theorem C77_exact {fma : T → T → T → T} {zero : T} {r : Red T A} {mul : T → T → A} (h : ExactDot fma zero r mul) {l : List (T × T)} {t : T}
    (hd : IsDot fma zero r l t) : r.toV t = (l.map fun p => mul p.1 p.2).foldl r.op r.e := by
  obtain ⟨cs, ts, rfl, hc, hr⟩ := hd
  have hfold : ∀ (l : List A) (s : A), l.foldl r.op s = r.op s (l.foldl r.op r.e) := by
    intro l
    induction l with
    | nil => intro s; exact (h.right s).symm
    | cons x l ih => intro s; rw [List.foldl_cons, List.foldl_cons, ih, ih (r.op r.e x), h.left, h.assoc]
  have hchain : ∀ {l : List (T × T)} {s : T}, Chain fma zero l s → r.toV s = (l.map fun p => mul p.1 p.2).foldl r.op r.e := by
    intro l s hc
    induction hc with
    | nil => exact h.zero_eq
    | snoc x y _ ih => rw [h.fma_eq, List.map_append, List.foldl_append, ih]; rfl
  rw [hr.exact h.toExact, h.conv]
  unfold Red.fold
  clear hr
  have key : ∀ s, ts.foldl (fun a x => r.op a (r.toV x)) s = (cs.flatten.map fun p => mul p.1 p.2).foldl r.op s := by
    induction hc with
    | nil => intro s; rfl
    | cons h1 _ ih => intro s; rw [List.foldl_cons, ih, List.flatten_cons, List.map_append, List.foldl_append, hchain h1, ← hfold]
  exact key _

/-- **C77 fails** for arrays with more than 2^32 - `ideal` entries: the number of blocks is computed as zero, and the result is that of the first block. -/
theorem C77_size_counterexample (fma : T → T → T → T) (zero : T) (r : Red T A) {tsize workers ideal size a b outb fresh : Nat}
    (h1 : 2 ^ 32 < size + ideal) (h2 : size < 2 ^ 32) (hid : ideal ≤ size) (hw : 1 < workers) (ha : a ≠ outb) (hb : b ≠ outb) :
    ∃ ps, reduceDot fma zero r tsize workers ideal size a b outb fresh = .ok ps [] ∧
      ∀ m m', Ends ps m m' → Chain fma zero (slice (fun j => (m (a, j), m (b, j))) 0 ideal) (m' (outb, 0)) := by
  have hp : poolSplit workers ideal size = (ideal, 0) := by
    unfold poolSplit
    rw [if_pos hw]
    unfold ceilDiv32
    rw [Nat.div_eq_of_lt (by omega)]
  unfold reduceDot
  rw [hp]
  dsimp only
  rw [if_neg (by omega)]
  refine ⟨_, rfl, ?_⟩
  rintro m m' ⟨m1, hm1, rfl⟩
  have hsr : splitRange' ideal size 0 = (0, ideal) := by
    unfold splitRange'
    rw [mul32_eq (by omega), add32_eq (by omega), mul32_eq (by omega), Nat.zero_mul]
    congr 1
    omega
  obtain ⟨g1, _⟩ := phase_spec (n := 1) (R := fun _ => {l : Loc | (l.1 = a ∨ l.1 = b) ∧ 0 ≤ l.2 ∧ l.2 < ideal}) (W := fun i => {l : Loc | l = (outb, 0)})
    (Q := fun _ m' => Chain fma zero (slice (fun j => (m (a, j), m (b, j))) 0 ideal) (m' (outb, 0))) (fun i j hi hj hij => by omega)
    (f := dotTask fma zero tsize ideal size a b outb)
    (fun i hi => by
      have e : i = 0 := by omega
      subst e
      exact dotTask_wp hsr (by omega) (by omega) (by simp [mul32]) m) hm1
  obtain ⟨mi, g2, g3, _⟩ := g1 0 (by omega)
  rw [g3 _ rfl]; exact g2

/-! ### The hypotheses can be met -/

/-- Integers are an instance of exact arithmetic. -/
theorem exact_int : ExactDot (T := Int) (fun x y s => x * y + s) 0 ⟨id, id, (· + ·), 0⟩ (· * ·) where
  assoc := Int.add_assoc
  left := Int.zero_add
  right := Int.add_zero
  conv := fun _ => rfl
  conv' := fun _ => rfl
  fma_eq := fun x y s => Int.add_comm (x * y) s
  zero_eq := rfl

/-- 100000 elements, blocks of 16384 elements, 8 threads: seven blocks -/
example : (poolSplit 8 16384 100000).2 = 7 ∧
    ∃ ps as, reduceDot (T := Int) (fun x y s => x * y + s) 0 ⟨id, id, (· + ·), 0⟩ 4 8 16384 100000 0 1 2 3 = .ok ps as ∧
      ∀ m m', Ends ps m m' → m' (2, 0) = ((slice (fun j => (m (0, j), m (1, j))) 0 100000).map fun p => p.1 * p.2).foldl (· + ·) 0 := by
  refine ⟨by decide +kernel, ?_⟩
  obtain ⟨ps, as, h, h2⟩ := C77_dot_partial (T := Int) (fun x y s => x * y + s) 0 ⟨id, id, (· + ·), 0⟩ 4 8 16384 100000 0 1 2 3 (by omega) (by omega) (by omega)
    (by omega) (by omega) (by omega) (by omega) (by omega) (by omega) (by omega) (by omega)
  exact ⟨ps, as, h, fun m m' hm => C77_exact exact_int ((h2 m).2.2 m' hm).1⟩

end Verif.Llvm
