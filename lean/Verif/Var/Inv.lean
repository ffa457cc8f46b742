import Verif.Var.Model
import Verif.FreeSlots.Lemmas
import Mathlib.Algebra.BigOperators.Group.Finset.Basic
import Mathlib.Algebra.Order.BigOperators.Group.Finset
import Mathlib.Data.Finset.Card
import Mathlib.Tactic.ByContra
import Mathlib.Tactic.Ring
/-!
# Weakest preconditions and the invariant of the variable table
-/
set_option linter.dupNamespace false
namespace Verif.Var
open Verif.FreeSlots (FreeSlots Rep sinsert mem_sinsert rep_push rep_pop)

/-! ## Weakest preconditions -/

/-- `wp m s Q R T`: running `m` on `s` does not terminate the process; it returns normally in a
state satisfying `Q`, raises an exception in a state satisfying `R`, or leaves the model for
a reason satisfying `T`. -/
def wp {α : Type} (m : M α) (s : Store) (Q : α → Store → Prop) (R : Store → Prop)
    (T : Stop → Prop) : Prop :=
  match m s with
  | .ok a s' => Q a s'
  | .raise s' => R s'
  | .abort => False
  | .stop r => T r

section
variable {α β : Type} {Q : α → Store → Prop} {R : Store → Prop} {T : Stop → Prop} {s : Store}

@[simp] theorem wp_pure (a : α) : wp (pure a : M α) s Q R T = Q a s := rfl

@[simp] theorem wp_bind (m : M β) (f : β → M α) :
    wp (m >>= f) s Q R T = wp m s (fun a s' => wp (f a) s' Q R T) R T := by
  simp only [wp, bind]
  cases m s <;> rfl

@[simp] theorem wp_getStore {Q : Store → Store → Prop} : wp getStore s Q R T = Q s s := rfl
@[simp] theorem wp_modifyStore (f : Store → Store) {Q : Unit → Store → Prop} :
    wp (modifyStore f) s Q R T = Q () (f s) := rfl
@[simp] theorem wp_raise : wp (raise : M α) s Q R T = R s := rfl
@[simp] theorem wp_abort : wp (abort : M α) s Q R T = False := rfl
@[simp] theorem wp_stop (r : Stop) : wp (stop r : M α) s Q R T = T r := rfl

theorem wp_mono {m : M α} {Q' : α → Store → Prop} {R' : Store → Prop} {T' : Stop → Prop}
    (h : wp m s Q R T) (hQ : ∀ a s', Q a s' → Q' a s') (hR : ∀ s', R s' → R' s')
    (hT : ∀ r, T r → T' r) : wp m s Q' R' T' := by
  unfold wp at *
  cases hm : m s <;> simp only [hm] at h ⊢
  · exact hQ _ _ h
  · exact hR _ h
  · exact hT _ h

/-- `wp_mono` for the normal outcome only. -/
theorem wp_post {m : M α} {Q' : α → Store → Prop}
    (h : wp m s Q R T) (hQ : ∀ a s', Q a s' → Q' a s') : wp m s Q' R T :=
  wp_mono h hQ (fun _ => id) (fun _ => id)

theorem wp_ok {m : M α} {a : α} {s' : Store} (h : wp m s Q R T) (e : m s = .ok a s') : Q a s' := by
  unfold wp at h; rw [e] at h; exact h

theorem wp_ite {c : Prop} [Decidable c] (m m' : M α) :
    wp (if c then m else m') s Q R T = if c then wp m s Q R T else wp m' s Q R T := by
  split <;> rfl
end

/-! ## The invariant -/

/-- References held by a variable: ordinary ones, and the one of a pending write. -/
def Var.refs (v : Var) : List Nat := if v.writePtr then [] else [v.d0, v.d1, v.d2, v.d3]
@[inherit_doc Var.refs] def Var.refsSe (v : Var) : List Nat := if v.writePtr then [v.d3] else []

/-- Slot `i` is in use: it is neither the reserved slot 0 nor recycled. -/
def Alive (s : Store) (U : List Nat) (i : Nat) : Prop := i ≠ 0 ∧ i < s.len ∧ i ∉ U

instance (s : Store) (U : List Nat) (i : Nat) : Decidable (Alive s U i) := by
  unfold Alive; infer_instance

/-- Number of references to `i` held by the variables in use. -/
def refSum (s : Store) (U : List Nat) (i : Nat) : Nat :=
  ∑ j ∈ Finset.range s.len, if Alive s U j then (s.vars j).refs.count i else 0
@[inherit_doc refSum] def refSumSe (s : Store) (U : List Nat) (i : Nat) : Nat :=
  ∑ j ∈ Finset.range s.len, if Alive s U j then (s.vars j).refsSe.count i else 0

/-- `v` owns the buffer at address `p`. -/
def Var.owns (v : Var) (p : BitVec 64) : Bool := v.isEvaluated && !v.retainData && v.literal == p

/-- Number of variables in use that own the buffer at address `p`. -/
def owned (s : Store) (U : List Nat) (p : BitVec 64) : Nat :=
  ∑ j ∈ Finset.range s.len, if Alive s U j ∧ (s.vars j).owns p = true then 1 else 0

/-- `ext` plus one reference for each nonzero entry of `l`. -/
def plus (ext : Nat → Nat) (l : List Nat) : Nat → Nat :=
  fun k => ext k + if k = 0 then 0 else l.count k

/-- The invariant.  `U` are the recycled slots, `ext i` / `extSe i` the number of references to
`i` held by callers, `P` the variables without references that are about to be freed. -/
structure Inv (s : Store) (U : List Nat) (ext extSe : Nat → Nat) (P : List Nat) : Prop where
  rep : Rep s.unused U
  ub : ∀ u ∈ U, u ≠ 0 ∧ u < s.len
  len : 0 < s.len ∧ s.len ≤ 2 ^ 32
  dead : ∀ i, ¬ Alive s U i → (s.vars i).refCount = 0 ∧ (s.vars i).refCountSe = 0 ∧
    ext i = 0 ∧ extSe i = 0
  deps : ∀ j, Alive s U j → ∀ d, d ∈ (s.vars j).refs ++ (s.vars j).refsSe → d ≠ 0 →
    Alive s U d ∧ (s.vars d).uid < (s.vars j).uid
  uids : ∀ i, Alive s U i → (s.vars i).uid < s.variableCounter
  rc : ∀ i, Alive s U i → (s.vars i).refCount = ext i + refSum s U i
  rcSe : ∀ i, Alive s U i → (s.vars i).refCountSe = extSe i + refSumSe s U i
  pend : ∀ i, i ∈ P ↔ (Alive s U i ∧ (s.vars i).refCount = 0 ∧ (s.vars i).refCountSe = 0)
  nodup : P.Nodup
  lvn : ∀ (k : Key) (i : Nat), (k, i) ∈ s.lvn → Alive s U i ∧ (s.vars i).key = k ∧
    (s.vars i).kind ≠ .evaluated
  lvnKeys : (s.lvn.map Prod.fst).Nodup
  bal : ∀ p, owned s U p + s.freed.count p = s.acquired.count p

/-- A variable without its reference counts and its size. -/
def Var.body (v : Var) : Var := { v with refCount := 0, refCountSe := 0, size := 0 }

/-- Device memory, pending side effects, flags and scope bookkeeping. -/
def Store.env (s : Store) :
    (BitVec 64 → Nat → BitVec 64) × List Nat × List Nat × Nat × Bool × Bool × Bool × Bool × Bool :=
  (s.mem, s.sideEffects, s.otherScopes, s.scopeCtr, s.valueNumbering, s.reuseIndices, s.constProp, s.fastMath,
    s.symbolicScope)

/-- What an operation may do to the variables it did not create: release those without
remaining references, and change the size of unevaluated ones that are not operands of others.
References in `base` are kept throughout. -/
structure Frame (base : Nat → Nat) (s : Store) (U : List Nat) (s' : Store) (U' : List Nat) :
    Prop where
  env : s'.env = s.env
  scope : s'.scope = s.scope
  vc : s.variableCounter ≤ s'.variableCounter
  len : s.len ≤ s'.len
  keep : ∀ i, Alive s' U' i → (s'.vars i).uid < s.variableCounter →
    Alive s U i ∧ (s'.vars i).body = (s.vars i).body ∧
    ((s.vars i).kind = .evaluated → (s'.vars i).size = (s.vars i).size)
  ops : ∀ i, Alive s' U' i → (s'.vars i).uid < s.variableCounter → ∀ d ∈ (s.vars i).refs, d ≠ 0 →
    (s'.vars d).size = (s.vars d).size
  stay : ∀ i, 0 < base i → Alive s U i → Alive s' U' i ∧ (s'.vars i).uid = (s.vars i).uid
  cnt : ∀ i, i < s.len → (s.vars i).counter ≤ (s'.vars i).counter
  gone : ∀ i, Alive s U i → (Alive s' U' i ∧ (s'.vars i).uid = (s.vars i).uid) ∨
    (s.vars i).counter < (s'.vars i).counter

theorem body_uid {v w : Var} (h : v.body = w.body) : v.uid = w.uid := by
  simpa [Var.body] using congrArg Var.uid h
theorem body_counter {v w : Var} (h : v.body = w.body) : v.counter = w.counter := by
  simpa [Var.body] using congrArg Var.counter h
theorem body_kind {v w : Var} (h : v.body = w.body) : v.kind = w.kind := by
  simpa [Var.body] using congrArg Var.kind h

theorem body_refs {v w : Var} (h : v.body = w.body) : v.refs = w.refs := by
  have e : v.body.refs = w.body.refs := by rw [h]
  exact e

theorem Frame.refl {base : Nat → Nat} {s : Store} {U : List Nat} : Frame base s U s U where
  env := rfl
  scope := rfl
  vc := le_refl _
  len := le_refl _
  keep := fun _ h _ => ⟨h, rfl, fun _ => rfl⟩
  ops := fun _ _ _ _ _ _ => rfl
  stay := fun _ _ h => ⟨h, rfl⟩
  cnt := fun _ _ => le_refl _
  gone := fun _ h => .inl ⟨h, rfl⟩

theorem Frame.trans {base : Nat → Nat} {s s' s'' : Store} {U U' U'' : List Nat}
    (h1 : Frame base s U s' U') (h2 : Frame base s' U' s'' U'') : Frame base s U s'' U'' where
  env := h2.env.trans h1.env
  scope := h2.scope.trans h1.scope
  vc := le_trans h1.vc h2.vc
  len := le_trans h1.len h2.len
  keep := by
    intro i hi hu
    obtain ⟨a2, b2, c2⟩ := h2.keep i hi (lt_of_lt_of_le hu h1.vc)
    obtain ⟨a1, b1, c1⟩ := h1.keep i a2 (by rw [← body_uid b2]; exact hu)
    exact ⟨a1, b2.trans b1, fun hk => (c2 (by rw [body_kind b1]; exact hk)).trans (c1 hk)⟩
  ops := by
    intro i hi hu d hd h0
    obtain ⟨a2, b2, _⟩ := h2.keep i hi (lt_of_lt_of_le hu h1.vc)
    have hu' : (s'.vars i).uid < s.variableCounter := by rw [← body_uid b2]; exact hu
    obtain ⟨_, b1, _⟩ := h1.keep i a2 hu'
    rw [h2.ops i hi (lt_of_lt_of_le hu h1.vc) d (by rw [body_refs b1]; exact hd) h0]
    exact h1.ops i a2 hu' d hd h0
  stay := by
    intro i hb hi
    obtain ⟨a1, b1⟩ := h1.stay i hb hi
    obtain ⟨a2, b2⟩ := h2.stay i hb a1
    exact ⟨a2, b2.trans b1⟩
  cnt := fun i hi => le_trans (h1.cnt i hi) (h2.cnt i (lt_of_lt_of_le hi h1.len))
  gone := by
    intro i hi
    rcases h1.gone i hi with ⟨a1, b1⟩ | h
    · rcases h2.gone i a1 with ⟨a2, b2⟩ | h
      · exact .inl ⟨a2, b2.trans b1⟩
      · exact .inr (lt_of_le_of_lt (h1.cnt i hi.2.1) h)
    · exact .inr (lt_of_lt_of_le h (h2.cnt i (lt_of_lt_of_le hi.2.1 h1.len)))

theorem Frame.mono {base base' : Nat → Nat} {s s' : Store} {U U' : List Nat}
    (h : Frame base s U s' U') (hb : ∀ i, 0 < base' i → 0 < base i) : Frame base' s U s' U' where
  env := h.env
  scope := h.scope
  vc := h.vc
  len := h.len
  keep := h.keep
  ops := h.ops
  stay := fun i hi => h.stay i (hb i hi)
  cnt := h.cnt
  gone := h.gone

/-! ## Sums -/

theorem sum_point (n j : Nat) (f g : Nat → Nat) (hj : j < n) (h : ∀ k, k ≠ j → f k = g k) :
    (∑ k ∈ Finset.range n, f k) + g j = (∑ k ∈ Finset.range n, g k) + f j := by
  have hm : j ∈ Finset.range n := Finset.mem_range.2 hj
  rw [← Finset.add_sum_erase _ f hm, ← Finset.add_sum_erase _ g hm]
  have : ∑ k ∈ (Finset.range n).erase j, f k = ∑ k ∈ (Finset.range n).erase j, g k :=
    Finset.sum_congr rfl (fun k hk => h k (Finset.ne_of_mem_erase hk))
  omega

theorem plus_nil (ext : Nat → Nat) : plus ext [] = ext := by
  funext k; simp [plus]

theorem plus_zero (ext : Nat → Nat) (l : List Nat) : plus ext (0 :: l) = plus ext l := by
  funext k
  unfold plus
  split
  · rfl
  · rename_i h
    rw [List.count_cons_of_ne (fun e => h e.symm)]

theorem plus_cons (ext : Nat → Nat) (d : Nat) (l : List Nat) :
    plus ext (d :: l) = plus (plus ext l) [d] := by
  funext k
  unfold plus
  split
  · rfl
  · simp only [List.count_cons, List.count_nil]; omega

theorem plus_apply_pos {ext : Nat → Nat} {d : Nat} {l : List Nat} (hd : d ≠ 0) (h : d ∈ l) :
    0 < plus ext l d := by
  unfold plus
  rw [if_neg hd]
  have := List.count_pos_iff.2 h
  omega

theorem refSum_congr {s s' : Store} {U U' : List Nat} (hl : s'.len = s.len)
    (h : ∀ j, Alive s U j ↔ Alive s' U' j)
    (hr : ∀ j, Alive s U j → (s'.vars j).refs = (s.vars j).refs) (i : Nat) :
    refSum s' U' i = refSum s U i := by
  unfold refSum
  rw [hl]
  refine Finset.sum_congr rfl (fun j _ => ?_)
  by_cases ha : Alive s U j
  · rw [if_pos ha, if_pos ((h j).1 ha), hr j ha]
  · rw [if_neg ha, if_neg (fun h' => ha ((h j).2 h'))]

theorem refSumSe_congr {s s' : Store} {U U' : List Nat} (hl : s'.len = s.len)
    (h : ∀ j, Alive s U j ↔ Alive s' U' j)
    (hr : ∀ j, Alive s U j → (s'.vars j).refsSe = (s.vars j).refsSe) (i : Nat) :
    refSumSe s' U' i = refSumSe s U i := by
  unfold refSumSe
  rw [hl]
  refine Finset.sum_congr rfl (fun j _ => ?_)
  by_cases ha : Alive s U j
  · rw [if_pos ha, if_pos ((h j).1 ha), hr j ha]
  · rw [if_neg ha, if_neg (fun h' => ha ((h j).2 h'))]

theorem refSum_pos {s : Store} {U : List Nat} {j d : Nat} (hj : Alive s U j)
    (hd : d ∈ (s.vars j).refs) : 0 < refSum s U d := by
  unfold refSum
  have h1 : (if Alive s U j then (s.vars j).refs.count d else 0) ≤
      ∑ k ∈ Finset.range s.len, if Alive s U k then (s.vars k).refs.count d else 0 :=
    Finset.single_le_sum (f := fun k => if Alive s U k then (s.vars k).refs.count d else 0)
      (fun _ _ => Nat.zero_le _) (Finset.mem_range.2 hj.2.1)
  rw [if_pos hj] at h1
  have := List.count_pos_iff.2 hd
  omega

theorem refSumSe_pos {s : Store} {U : List Nat} {j d : Nat} (hj : Alive s U j)
    (hd : d ∈ (s.vars j).refsSe) : 0 < refSumSe s U d := by
  unfold refSumSe
  have h1 : (if Alive s U j then (s.vars j).refsSe.count d else 0) ≤
      ∑ k ∈ Finset.range s.len, if Alive s U k then (s.vars k).refsSe.count d else 0 :=
    Finset.single_le_sum (f := fun k => if Alive s U k then (s.vars k).refsSe.count d else 0)
      (fun _ _ => Nat.zero_le _) (Finset.mem_range.2 hj.2.1)
  rw [if_pos hj] at h1
  have := List.count_pos_iff.2 hd
  omega

/-- Removing the variable `j`. -/
theorem refSum_remove {s s' : Store} {U : List Nat} {j : Nat} (hl : s'.len = s.len)
    (hj : Alive s U j) (hr : ∀ k, k ≠ j → (s'.vars k).refs = (s.vars k).refs) (i : Nat) :
    refSum s U i = refSum s' (sinsert j U) i + (s.vars j).refs.count i := by
  unfold refSum
  rw [hl]
  have := sum_point s.len j
    (fun k => if Alive s U k then (s.vars k).refs.count i else 0)
    (fun k => if Alive s' (sinsert j U) k then (s'.vars k).refs.count i else 0) hj.2.1
    (by
      intro k hk
      have : Alive s' (sinsert j U) k ↔ Alive s U k := by
        unfold Alive; rw [mem_sinsert, hl]; simp [hk]
      simp only [this, hr k hk])
  have e1 : (if Alive s' (sinsert j U) j then (s'.vars j).refs.count i else 0) = 0 := by
    rw [if_neg]; unfold Alive; rw [mem_sinsert]; simp
  simp only [e1, if_pos hj] at this
  omega

theorem refSumSe_remove {s s' : Store} {U : List Nat} {j : Nat} (hl : s'.len = s.len)
    (hj : Alive s U j) (hr : ∀ k, k ≠ j → (s'.vars k).refsSe = (s.vars k).refsSe) (i : Nat) :
    refSumSe s U i = refSumSe s' (sinsert j U) i + (s.vars j).refsSe.count i := by
  unfold refSumSe
  rw [hl]
  have := sum_point s.len j
    (fun k => if Alive s U k then (s.vars k).refsSe.count i else 0)
    (fun k => if Alive s' (sinsert j U) k then (s'.vars k).refsSe.count i else 0) hj.2.1
    (by
      intro k hk
      have : Alive s' (sinsert j U) k ↔ Alive s U k := by
        unfold Alive; rw [mem_sinsert, hl]; simp [hk]
      simp only [this, hr k hk])
  have e1 : (if Alive s' (sinsert j U) j then (s'.vars j).refsSe.count i else 0) = 0 := by
    rw [if_neg]; unfold Alive; rw [mem_sinsert]; simp
  simp only [e1, if_pos hj] at this
  omega

theorem owned_congr {s s' : Store} {U U' : List Nat} (hl : s'.len = s.len)
    (h : ∀ j, Alive s U j ↔ Alive s' U' j)
    (hr : ∀ j, Alive s U j → ∀ p, (s'.vars j).owns p = (s.vars j).owns p) (p : BitVec 64) :
    owned s' U' p = owned s U p := by
  unfold owned
  rw [hl]
  refine Finset.sum_congr rfl (fun j _ => ?_)
  by_cases ha : Alive s U j
  · simp only [ha, (h j).1 ha, hr j ha]
  · have : ¬ Alive s' U' j := fun h' => ha ((h j).2 h')
    simp only [ha, this, false_and]

theorem owned_remove {s s' : Store} {U : List Nat} {j : Nat} (hl : s'.len = s.len)
    (hj : Alive s U j) (hr : ∀ k, k ≠ j → ∀ p, (s'.vars k).owns p = (s.vars k).owns p)
    (p : BitVec 64) :
    owned s U p = owned s' (sinsert j U) p + if (s.vars j).owns p then 1 else 0 := by
  unfold owned
  rw [hl]
  have := sum_point s.len j
    (fun k => if Alive s U k ∧ (s.vars k).owns p = true then 1 else 0)
    (fun k => if Alive s' (sinsert j U) k ∧ (s'.vars k).owns p = true then 1 else 0) hj.2.1
    (by
      intro k hk
      have : Alive s' (sinsert j U) k ↔ Alive s U k := by
        unfold Alive; rw [mem_sinsert, hl]; simp [hk]
      simp only [this, hr k hk])
  have e1 : ¬ Alive s' (sinsert j U) j := by
    unfold Alive; rw [mem_sinsert]; simp
  simp only [e1, hj, false_and, true_and, if_false] at this
  omega

@[simp] theorem set_freed (s : Store) (i : Nat) (v : Var) : (s.set i v).freed = s.freed := rfl
@[simp] theorem set_acquired (s : Store) (i : Nat) (v : Var) :
    (s.set i v).acquired = s.acquired := rfl
@[simp] theorem set_len (s : Store) (i : Nat) (v : Var) : (s.set i v).len = s.len := rfl
@[simp] theorem set_unused (s : Store) (i : Nat) (v : Var) : (s.set i v).unused = s.unused := rfl
@[simp] theorem set_lvn (s : Store) (i : Nat) (v : Var) : (s.set i v).lvn = s.lvn := rfl
@[simp] theorem set_vc (s : Store) (i : Nat) (v : Var) :
    (s.set i v).variableCounter = s.variableCounter := rfl
@[simp] theorem set_env (s : Store) (i : Nat) (v : Var) : (s.set i v).env = s.env := rfl
@[simp] theorem set_scope (s : Store) (i : Nat) (v : Var) : (s.set i v).scope = s.scope := rfl
@[simp] theorem set_self (s : Store) (i : Nat) (v : Var) : (s.set i v).vars i = v := by
  simp [Store.set]
theorem set_ne (s : Store) {i j : Nat} (v : Var) (h : j ≠ i) :
    (s.set i v).vars j = s.vars j := by simp [Store.set, h]

theorem alive_set {s : Store} {U : List Nat} {i j : Nat} {v : Var} :
    Alive (s.set i v) U j ↔ Alive s U j := Iff.rfl

end Verif.Var
