import Verif.Cuda.DotSpec
import Verif.Cuda.ReduceProps

/-!
# Dot products on CUDA devices
-/
namespace Verif.Cuda

open Verif.Par Verif.Arith

variable {T V : Type}

/-! ### Combining results -/

theorem comb_closed {A : Type} {op : V → V → V} {init : V} {P : Multiset A → V → Prop} (h0 : P 0 init) (hadd : ∀ s t a b, P s a → P t b → P (s + t) (op a b)) {s : Multiset V} {v : V}
    (h : Comb op init s v) : ∀ t : Multiset (Multiset A), Multiset.Rel (fun a m => P m a) s t → P t.sum v := by
  induction h with
  | nil =>
    intro t ht
    rw [Multiset.rel_zero_left] at ht
    subst ht
    exact h0
  | one x =>
    intro t ht
    obtain ⟨m, t', h1, h2, rfl⟩ := Multiset.rel_cons_left.1 (show Multiset.Rel _ (x ::ₘ 0) t from ht)
    rw [Multiset.rel_zero_left] at h2
    subst h2
    simpa using h1
  | node _ _ ih1 ih2 =>
    intro t ht
    obtain ⟨t1, t2, h1, h2, rfl⟩ := Multiset.rel_add_left.1 ht
    rw [Multiset.sum_add]
    exact hadd _ _ _ _ (ih1 t1 h1) (ih2 t2 h2)

theorem map_biUnion_sum {A : Type} {f : Nat → A} {S : Finset Nat} {E : Nat → Finset Nat} (hE : ∀ i j, i ∈ S → j ∈ S → i ≠ j → Disjoint (E i) (E j)) :
    ((S.biUnion E).val.map f) = (S.val.map fun i => (E i).val.map f).sum := by
  have hd : (S : Set Nat).PairwiseDisjoint E := fun i hi j hj hij => hE i j hi hj hij
  rw [← Finset.disjiUnion_eq_biUnion S E hd]
  show ((S.val.bind fun i => (E i).val).map f) = _
  rw [Multiset.map_bind]
  rfl

theorem on_closed {A : Type} {op : V → V → V} {init : V} {P : Multiset A → V → Prop} (h0 : P 0 init) (hadd : ∀ s t a b, P s a → P t b → P (s + t) (op a b)) {g : Nat → V} {f : Nat → A} {S : Finset Nat}
    {E : Nat → Finset Nat} (hE : ∀ i j, i ∈ S → j ∈ S → i ≠ j → Disjoint (E i) (E j)) {v : V} (h : On op init g S v) (hg : ∀ i, i ∈ S → P ((E i).val.map f) (g i)) : P ((S.biUnion E).val.map f) v := by
  rw [map_biUnion_sum hE]
  refine comb_closed h0 hadd h _ ?_
  rw [Multiset.rel_map]
  exact Multiset.rel_refl_of_refl_on fun i hi => hg i hi

/-! ### The loop of a thread -/

section
variable {D : DotOps T V} {x1 x2 : Nat → T} {size : Nat}

/-- Pairs of elements -/
def pairs (x1 x2 : Nat → T) (S : Finset Nat) : Multiset (T × T) := S.val.map fun j => (x1 j, x2 j)

theorem pairs_union {S S' : Finset Nat} (h : Disjoint S S') : pairs x1 x2 (S ∪ S') = pairs x1 x2 S + pairs x1 x2 S' := by
  unfold pairs
  rw [← Finset.disjUnion_eq_union S S' h]
  simp only [Finset.disjUnion, Multiset.map_add]

/-- Elements of a thread from iteration `k` on -/
def dotElems (size nb c t k : Nat) : Finset Nat := (Finset.range size).filter fun j => j % (2048 * nb) / 2048 = c ∧ j % 1024 = t ∧ k ≤ j / (2048 * nb)

theorem dotElems_done {nb c t k : Nat} (ht : t < 1024) (h : ¬ k * (2048 * nb) + (2048 * c + t) < size) : dotElems size nb c t k = ∅ := by
  ext j
  unfold dotElems
  simp only [Finset.mem_filter, Finset.mem_range, Finset.notMem_empty, iff_false]
  rintro ⟨h1, h2, h3, h4⟩
  have hd := Nat.div_add_mod j (2048 * nb)
  have h5 : k * (2048 * nb) ≤ 2048 * nb * (j / (2048 * nb)) := by rw [Nat.mul_comm]; exact Nat.mul_le_mul_left _ h4
  have hmm : j % (2048 * nb) % 1024 = j % 1024 := Nat.mod_mod_of_dvd _ ⟨2 * nb, by omega⟩
  omega

theorem dotElems_step {nb c t k : Nat} (hc : c < nb) (ht : t < 1024) (h : k * (2048 * nb) + (2048 * c + t) < size) :
    dotElems size nb c t k = {k * (2048 * nb) + (2048 * c + t)} ∪ ((if k * (2048 * nb) + (2048 * c + t) + 1024 < size then {k * (2048 * nb) + (2048 * c + t) + 1024} else ∅) ∪ dotElems size nb c t (k + 1)) := by
  have q1 : (2048 * c + t + 1024) / 2048 = c := by omega
  have q2 : (2048 * c + t + 1024) % 1024 = t := by omega
  have hN : 0 < 2048 * nb := by omega
  have aux : ∀ r, r < 2048 * nb → (k * (2048 * nb) + r) % (2048 * nb) = r ∧ (k * (2048 * nb) + r) / (2048 * nb) = k := by
    intro r hr
    rw [Nat.mul_comm k, Nat.mul_add_mod, Nat.mod_eq_of_lt hr, Nat.mul_add_div hN, Nat.div_eq_of_lt hr, Nat.add_zero]
    exact ⟨rfl, rfl⟩
  have hmod : ∀ j, j % (2048 * nb) % 1024 = j % 1024 := fun j => Nat.mod_mod_of_dvd _ ⟨2 * nb, by omega⟩
  ext j
  rw [Finset.mem_union, Finset.mem_union, Finset.mem_singleton]
  have hif : (j ∈ (if k * (2048 * nb) + (2048 * c + t) + 1024 < size then ({k * (2048 * nb) + (2048 * c + t) + 1024} : Finset Nat) else ∅)) ↔
      (k * (2048 * nb) + (2048 * c + t) + 1024 < size ∧ j = k * (2048 * nb) + (2048 * c + t) + 1024) := by
    split <;> simp_all
  rw [hif]
  unfold dotElems
  simp only [Finset.mem_filter, Finset.mem_range]
  have hd := Nat.div_add_mod j (2048 * nb)
  have hm := Nat.mod_lt j hN
  have hj := hmod j
  constructor
  · rintro ⟨h1, h2, h3, h4⟩
    by_cases hk : j / (2048 * nb) = k
    · rw [hk, Nat.mul_comm] at hd
      generalize k * (2048 * nb) = B at *
      generalize j % (2048 * nb) = r at *
      clear aux hif
      omega
    · exact Or.inr (Or.inr ⟨h1, h2, h3, by omega⟩)
  · rintro (rfl | ⟨h1, rfl⟩ | ⟨h1, h2, h3, h4⟩)
    · obtain ⟨a1, a2⟩ := aux (2048 * c + t) (by omega)
      refine ⟨h, by rw [a1]; omega, by rw [← hj, a1]; omega, by rw [a2]⟩
    · obtain ⟨a1, a2⟩ := aux (2048 * c + t + 1024) (by omega)
      have ea : k * (2048 * nb) + (2048 * c + t) + 1024 = k * (2048 * nb) + (2048 * c + t + 1024) := by omega
      rw [ea]
      rw [ea] at hj h1
      refine ⟨h1, (congrArg (fun w => w / 2048) a1).trans q1, (hj.symm.trans (congrArg (fun w => w % 1024) a1)).trans q2, Nat.le_of_eq a2.symm⟩
    · exact ⟨h1, h2, h3, by omega⟩

theorem loop_spec {nb c t : Nat} (hc : c < nb) (ht : t < 1024) (hs : size + 2048 * nb ≤ 2 ^ 32) {i : Nat} {v v' : T} (h : D.Loop x1 x2 size (2048 * nb) i v v') : ∀ k s, i = k * (2048 * nb) + (2048 * c + t) → DotT D s v →
    DotT D (pairs x1 x2 (dotElems size nb c t k) + s) v' := by
  induction h with
  | done i v hi =>
    intro k s hk hv
    subst hk
    rw [dotElems_done ht hi]
    simpa [pairs] using hv
  | step i v v' hi _ ih =>
    intro k s hk hv
    subst hk
    have hlt : k * (2048 * nb) + (2048 * c + t) + 2048 * nb < 2 ^ 32 := by omega
    have hone : ∀ j : Nat, pairs x1 x2 {j} = {(x1 j, x2 j)} := fun j => by simp [pairs]
    have := ih (k + 1) (pairs x1 x2 (if k * (2048 * nb) + (2048 * c + t) + 1024 < size then {k * (2048 * nb) + (2048 * c + t) + 1024} else ∅) + ({(x1 (k * (2048 * nb) + (2048 * c + t)), x2 (k * (2048 * nb) + (2048 * c + t)))} + s))
      (by rw [u32_lt hlt, Nat.add_mul k 1, Nat.one_mul]; omega) (by
        unfold DotOps.acc
        rw [u32_lt (by omega)]
        split
        · rw [hone]
          exact .fma _ _ (.fma _ _ hv)
        · have : pairs x1 x2 ∅ = 0 := rfl
          rw [this, zero_add]
          exact .fma _ _ hv)
    rw [dotElems_step hc ht hi, pairs_union, pairs_union, hone]
    · have e : ∀ a b c d : Multiset (T × T), a + (b + c) + d = c + (b + (a + d)) := by intro a b c d; ac_rfl
      rw [e]
      exact this
    · rw [Finset.disjoint_left]
      intro j hj
      have : j = k * (2048 * nb) + (2048 * c + t) + 1024 := by
        split at hj <;> simp_all
      subst this
      unfold dotElems
      simp only [Finset.mem_filter, Finset.mem_range, not_and, Nat.not_le]
      intro _ _ _
      apply Nat.div_lt_of_lt_mul
      rw [Nat.mul_succ, Nat.mul_comm]; omega
    · rw [Finset.disjoint_singleton_left]
      simp only [Finset.mem_union, not_or]
      refine ⟨?_, ?_⟩
      · split <;> simp
      · unfold dotElems
        simp only [Finset.mem_filter, Finset.mem_range, not_and, Nat.not_le]
        intro _ _ _
        apply Nat.div_lt_of_lt_mul
        rw [Nat.mul_succ, Nat.mul_comm]; omega

/-! ### The reduction within a thread block -/

theorem dotInit_ends {vals : Nat → T} {m m' : SLoc → T} (h : Phase.Ends (1024, dotInit vals) m m') : ∀ t, t < 1024 → m' (.reg t) = vals t ∧ m' (.sh t) = vals t := by
  obtain ⟨h1, h2⟩ := phase_spec (R := fun _ => ∅) (W := fun t => {l | l = SLoc.reg t ∨ l = SLoc.sh t}) (Q := fun t mt => mt (.reg t) = vals t ∧ mt (.sh t) = vals t) (by
      rintro i j hi hj hne l hl
      refine ⟨by simp, ?_⟩
      rcases hl with rfl | rfl <;> simp [hne]) (by
      intro t ht
      unfold dotInit
      rw [wp_bind]
      refine wp_put (Or.inl rfl) ?_
      refine wp_put (Or.inr rfl) ?_
      simp [upd]) h
  intro t ht
  obtain ⟨mi, q1, q2, _⟩ := h1 t ht
  rw [q2 _ (Or.inl rfl), q2 _ (Or.inr rfl)]
  exact q1

theorem dotStep_ends {add : T → T → T} {d : Nat} (hd : d ≤ 512) {m m' : SLoc → T} (h : Phase.Ends (1024, dotStep add d) m m') :
    ∀ t, t < d → m' (.reg t) = add (m (.reg t)) (m (.sh (t + d))) ∧ m' (.sh t) = add (m (.reg t)) (m (.sh (t + d))) := by
  obtain ⟨h1, h2⟩ := phase_spec (R := fun t => {l | l = SLoc.reg t ∨ l = SLoc.sh (t + d)}) (W := fun t => {l | t < d ∧ (l = SLoc.reg t ∨ l = SLoc.sh t)})
    (Q := fun t mt => t < d → mt (.reg t) = add (m (.reg t)) (m (.sh (t + d))) ∧ mt (.sh t) = add (m (.reg t)) (m (.sh (t + d)))) (by
      rintro i j hi hj hne l ⟨hl, hl'⟩
      rcases hl' with rfl | rfl
      · simp [hne]
      · simp [hne]
        omega) (by
      intro t ht
      unfold dotStep
      by_cases hlt : t < d
      · rw [if_pos hlt, wp_bind]
        refine wp_get (Or.inl rfl) ?_
        rw [wp_bind]
        refine wp_get (Or.inr rfl) ?_
        rw [wp_bind]
        refine wp_put ⟨hlt, Or.inl rfl⟩ ?_
        refine wp_put ⟨hlt, Or.inr rfl⟩ ?_
        simp [upd]
      · rw [if_neg hlt]
        exact fun h => absurd h hlt) h
  intro t ht
  obtain ⟨mi, q1, q2, _⟩ := h1 t (by omega)
  rw [q2 _ ⟨ht, Or.inl rfl⟩, q2 _ ⟨ht, Or.inr rfl⟩]
  exact q1 ht

/-- Threads with the same remainder -/
def cls (d t : Nat) : Finset Nat := (Finset.range 1024).filter fun u => u % d = t

theorem cls_half {n t : Nat} (ht : t < 2 ^ n) : cls (2 ^ n) t = cls (2 ^ (n + 1)) t ∪ cls (2 ^ (n + 1)) (t + 2 ^ n) ∧ Disjoint (cls (2 ^ (n + 1)) t) (cls (2 ^ (n + 1)) (t + 2 ^ n)) := by
  have hp := Nat.two_pow_pos n
  have hpow : 2 ^ (n + 1) = 2 ^ n * 2 := Nat.pow_succ 2 n
  constructor
  · ext u
    rw [Finset.mem_union]
    unfold cls
    simp only [Finset.mem_filter, Finset.mem_range]
    have h1 := Nat.mod_mul (x := u) (a := 2 ^ n) (b := 2)
    rw [← hpow] at h1
    have h2 := Nat.mod_lt u hp
    rcases Nat.mod_two_eq_zero_or_one (u / 2 ^ n) with h | h <;> rw [h] at h1
    · rw [Nat.mul_zero, Nat.add_zero] at h1
      omega
    · rw [Nat.mul_one] at h1
      omega
  · rw [Finset.disjoint_left]
    unfold cls
    simp only [Finset.mem_filter, Finset.mem_range]
    omega

theorem dotPhases_ends {add : T → T → T} {zero : T} {vals : Nat → T} (n : Nat) (hn : n ≤ 9) : ∀ m m', Ends (dotPhases add vals n) m m' → ∀ t, t < 2 ^ (10 - n) →
    On add zero vals (cls (2 ^ (10 - n)) t) (m' (.reg t)) ∧ On add zero vals (cls (2 ^ (10 - n)) t) (m' (.sh t)) := by
  induction n with
  | zero =>
    intro m m' h t ht
    obtain ⟨m1, h1, h2⟩ := h
    have h2 : m' = m1 := h2
    subst h2
    have ht' : t < 1024 := ht
    obtain ⟨a, b⟩ := dotInit_ends h1 t ht'
    rw [a, b]
    have : cls (2 ^ (10 - 0)) t = {t} := by
      ext u
      unfold cls
      show u ∈ Finset.filter (fun u => u % 1024 = t) _ ↔ _
      simp only [Finset.mem_filter, Finset.mem_range, Finset.mem_singleton]
      omega
    rw [this]
    exact ⟨On.single t, On.single t⟩
  | succ n ih =>
    intro m m' h t ht
    unfold dotPhases at h
    rw [ends_append] at h
    obtain ⟨m1, h1, m2, h2, h3⟩ := h
    have h3 : m' = m2 := h3
    subst h3
    have ih := ih (by omega) m m1 h1
    have e1 : 10 - (n + 1) = 9 - n := by omega
    have e2 : 10 - n = 9 - n + 1 := by omega
    rw [e1] at ht ⊢
    rw [e2] at ih
    have hpow : 2 ^ (9 - n + 1) = 2 ^ (9 - n) * 2 := Nat.pow_succ 2 _
    obtain ⟨a, b⟩ := dotStep_ends (by
      calc 2 ^ (9 - n) ≤ 2 ^ 9 := Nat.pow_le_pow_right (by omega) (by omega)
        _ = 512 := rfl) h2 t ht
    obtain ⟨c1, c2⟩ := cls_half ht
    have key := (ih t (by omega)).1.union c2 (ih (t + 2 ^ (9 - n)) (by omega)).2
    rw [← c1] at key
    rw [a, b]
    exact ⟨key, key⟩

theorem dotLast_on {add : T → T → T} {zero : T} {vals : Nat → T} {m m' : SLoc → T} (h : Ends (dotPhases add vals 4) m m') : On add zero vals (Finset.range 1024) (dotLast add m') := by
  have key := dotPhases_ends (zero := zero) 4 (by omega) m m' h
  have h32 : ∀ t, t < 32 → On add zero vals (cls 32 t) (add (m' (.reg t)) (m' (.sh (t + 32)))) := by
    intro t ht
    obtain ⟨c1, c2⟩ := cls_half (n := 5) ht
    have := (key t (show t < 64 by omega)).1.union c2 (key (t + 32) (show t + 32 < 64 by omega)).2
    rw [← c1] at this
    exact this
  have hA : Apart (cls 32) := by
    intro i j hij
    rw [Finset.disjoint_left]
    unfold cls
    simp only [Finset.mem_filter, Finset.mem_range]
    omega
  have := butterfly_group (op := add) (init := zero) (f := vals) (g := fun t => add (m' (.reg t)) (m' (.sh (t + 32)))) hA 5 0 (by
    intro l hl
    have e : group 5 0 = Finset.Ico 0 32 := rfl
    rw [e, Finset.mem_Ico] at hl
    exact h32 l hl.2)
  have e : (group 5 0).biUnion (cls 32) = Finset.range 1024 := by
    have e : group 5 0 = Finset.Ico 0 32 := rfl
    rw [e]
    ext u
    unfold cls
    simp only [Finset.mem_biUnion, Finset.mem_Ico, Finset.mem_filter, Finset.mem_range]
    constructor
    · rintro ⟨_, _, h, _⟩; exact h
    · intro h
      exact ⟨u % 32, by omega, h, rfl⟩
  rw [e] at this
  exact this

/-- Elements of a thread block -/
def dotBlock (size nb c : Nat) : Finset Nat := (Finset.range size).filter fun j => j % (2048 * nb) / 2048 = c

/-- **One kernel** -/
theorem dot_runs {nb : Nat} (hs : size + 2048 * nb ≤ 2 ^ 32) {y y' : Nat → T} (h : D.Runs nb size x1 x2 y y') :
    (∀ c, c < nb → DotT D (pairs x1 x2 (dotBlock size nb c)) (y' c)) ∧ ∀ e, nb ≤ e → y' e = y e := by
  obtain ⟨vals, m, h1, h2, h3⟩ := h
  refine ⟨fun c hc => ?_, fun e he => by rw [h3 e, if_neg (by omega)]⟩
  rw [h3 c, if_pos hc]
  obtain ⟨m0, hm⟩ := h2 c hc
  have hnb : (2048 : Nat) * (c + 1) ≤ 2048 * nb := Nat.mul_le_mul_left _ hc
  have e : dotBlock size nb c = (Finset.range 1024).biUnion fun t => dotElems size nb c t 0 := by
    ext j
    unfold dotBlock dotElems
    simp only [Finset.mem_biUnion, Finset.mem_filter, Finset.mem_range]
    constructor
    · rintro ⟨a, b⟩
      exact ⟨j % 1024, Nat.mod_lt _ (by omega), a, b, rfl, Nat.zero_le _⟩
    · rintro ⟨_, _, a, b, _, _⟩
      exact ⟨a, b⟩
  rw [e]
  refine on_closed (P := DotT D) .zero (fun _ _ _ _ => .add) ?_ (dotLast_on (zero := D.zero) hm) ?_
  · intro i j _ _ hij
    rw [Finset.disjoint_left]
    unfold dotElems
    simp only [Finset.mem_filter, Finset.mem_range]
    omega
  · intro t ht
    rw [Finset.mem_range] at ht
    have hl := h1 c t hc ht
    by_cases hbig : size = 0
    · subst hbig
      have he : dotElems 0 nb c t 0 = ∅ := by
        unfold dotElems; simp
      rw [he]
      generalize vals c t = w at hl
      cases hl with
      | done => exact .zero
      | step _ _ _ h => exact absurd h (Nat.not_lt_zero _)
    rw [u32_lt (show 2048 * nb < 2 ^ 32 by omega), u32_lt (show 2048 * c + t < 2 ^ 32 by omega)] at hl
    have := loop_spec hc ht hs hl 0 0 (by omega) .zero
    rw [add_zero] at this
    exact this

end

/-- Reductions of dot products -/
theorem rounded_dot {D : DotOps T V} {s : Multiset V} {v : V} (h : Rounded D.R.red D.R.init D.R.toV D.R.ofV s v) : ∀ t : Multiset (Multiset (T × T)), Multiset.Rel (fun a m => DotV D m a) s t → DotV D t.sum v := by
  induction h with
  | nil =>
    intro t ht
    rw [Multiset.rel_zero_left] at ht
    subst ht
    exact .nil
  | one x =>
    intro t ht
    obtain ⟨m, t', h1, h2, rfl⟩ := Multiset.rel_cons_left.1 (show Multiset.Rel _ (x ::ₘ 0) t from ht)
    rw [Multiset.rel_zero_left] at h2
    subst h2
    simpa using h1
  | node _ _ ih1 ih2 =>
    intro t ht
    obtain ⟨t1, t2, h1, h2, rfl⟩ := Multiset.rel_add_left.1 ht
    rw [Multiset.sum_add]
    exact .node (ih1 t1 h1) (ih2 t2 h2)
  | round _ ih =>
    intro t ht
    exact .round (ih t ht)

theorem dotBlocks_spec {sm size : Nat} (hsm : 1 ≤ sm) (h1 : 1 ≤ size) (hs : size + 8192 * sm ≤ 2 ^ 32) : 1 ≤ dotBlocks sm size ∧ dotBlocks sm size ≤ 4 * sm := by
  unfold dotBlocks
  rw [u32_lt (show sm * 4 < 2 ^ 32 by omega), u32_lt (show size + 2048 < 2 ^ 32 by omega), sub32_le (by omega) (by omega)]
  omega

/-- **C85**: in every execution, dot products on CUDA devices combine the products of all pairs of elements, each used once, and store the result; nothing else is written.

Partial: the loop of the kernel uses 32 bit indices, so that arrays close to `2 ^ 32` elements are excluded; see `C85_hang_counterexample` and `C85_launch_counterexample`. -/
theorem C85_dot_partial {D : DotOps T V} {tsize : Nat} (ht : tsize = 2 ∨ tsize = 4 ∨ tsize = 8) (hT : ∀ x, D.R.ofV (D.R.toV x) = x) {sm size : Nat} (hsm : 1 ≤ sm) (h1 : 1 ≤ size) (hs : size + 8192 * sm ≤ 2 ^ 32)
    {x1 x2 y : Nat → T} {o : DotOut T} (h : Dot D tsize sm size x1 x2 y o) :
    ∃ y', o = .ok (.ok y') ∧ IsDot D ((Multiset.range size).map fun i => (x1 i, x2 i)) (y' 0) ∧ ∀ i, 1 ≤ i → y' i = y i := by
  obtain ⟨b1, b2⟩ := dotBlocks_spec hsm h1 hs
  unfold Dot at h
  rw [if_neg (by omega)] at h
  by_cases hone : dotBlocks sm size = 1
  · rw [if_pos hone] at h
    obtain ⟨y', hr, rfl⟩ := h
    obtain ⟨k1, k2⟩ := dot_runs (by omega) hr
    refine ⟨y', rfl, Or.inl ?_, k2⟩
    have := k1 0 (by omega)
    have e : dotBlock size 1 0 = Finset.range size := by
      ext j
      unfold dotBlock
      simp only [Finset.mem_filter, Finset.mem_range]
      omega
    rw [e] at this
    exact this
  · rw [if_neg hone] at h
    obtain ⟨a, z, z', o', hr, hred, rfl⟩ := h
    generalize dotBlocks sm size = nb at *
    obtain ⟨k1, k2⟩ := dot_runs (by omega) hr
    obtain ⟨y', rfl, i1, i2⟩ := C84_reduce_partial ht hT hred b1 (Nat.le_refl _) (by omega) (by omega)
    refine ⟨y', rfl, Or.inr ?_, fun i hi => i2 i (Nat.le_mul_of_pos_left _ hi)⟩
    obtain ⟨v, hv, hy⟩ := i1 0 (by omega)
    refine ⟨v, ?_, hy⟩
    have e : (Finset.range size) = (Finset.range nb).biUnion (dotBlock size nb) := by
      ext j
      unfold dotBlock
      simp only [Finset.mem_biUnion, Finset.mem_filter, Finset.mem_range]
      constructor
      · intro h
        refine ⟨_, ?_, h, rfl⟩
        have := Nat.mod_lt j (show 0 < 2048 * nb by omega)
        exact Nat.div_lt_of_lt_mul this
      · rintro ⟨_, _, h, _⟩; exact h
    have eb : blockOf nb nb 0 = Finset.range nb := by
      ext j
      unfold blockOf
      simp only [Finset.mem_filter, Finset.mem_range]
      constructor
      · rintro ⟨h, _⟩; exact h
      · intro h
        exact ⟨h, Nat.div_eq_of_lt h⟩
    show DotV D ((Finset.range size).val.map _) v
    rw [e, map_biUnion_sum (by
      intro i j _ _ hij
      rw [Finset.disjoint_left]
      unfold dotBlock
      simp only [Finset.mem_filter, Finset.mem_range]
      omega)]
    refine rounded_dot hv _ ?_
    rw [eb, Multiset.rel_map]
    refine Multiset.rel_refl_of_refl_on fun c hc => ?_
    exact .one (k1 c (Finset.mem_range.1 hc))

/-- **C85**: in exact arithmetic the result is the sum of all products. -/
theorem C85_dot_exact [CommSemiring T] {D : DotOps T V} (hf : ∀ a b c, D.fma a b c = a * b + c) (ha : ∀ a b, D.add a b = a + b) (hz : D.zero = 0)
    (hr : ∀ a b, D.R.ofV (D.R.red a b) = D.R.ofV a + D.R.ofV b) (hi : D.R.ofV D.R.init = 0) (hT : ∀ a, D.R.ofV (D.R.toV a) = a)
    {tsize : Nat} (ht : tsize = 2 ∨ tsize = 4 ∨ tsize = 8) {sm size : Nat} (hsm : 1 ≤ sm) (h1 : 1 ≤ size) (hs : size + 8192 * sm ≤ 2 ^ 32)
    {x1 x2 y : Nat → T} {o : DotOut T} (h : Dot D tsize sm size x1 x2 y o) :
    o = .ok (.ok fun i => if i = 0 then ((Multiset.range size).map fun i => x1 i * x2 i).sum else y i) := by
  obtain ⟨y', rfl, e1, e2⟩ := C85_dot_partial ht hT hsm h1 hs h
  congr 2
  funext i
  by_cases h0 : i = 0
  · subst h0
    rw [if_pos rfl, e1.exact hf ha hz hr hi hT, Multiset.map_map]
    rfl
  · rw [if_neg h0]; exact e2 i (by omega)

/-! ### Executions -/

theorem loop_exists {D : DotOps T V} {x1 x2 : Nat → T} {size stride : Nat} (hst : 1 ≤ stride) (hs : size + stride ≤ 2 ^ 32) (n : Nat) : ∀ i v, size ≤ i + n → ∃ v', D.Loop x1 x2 size stride i v v' := by
  induction n with
  | zero => intro i v h; exact ⟨v, .done i v (by omega)⟩
  | succ n ih =>
    intro i v h
    by_cases hi : i < size
    · obtain ⟨v', hv⟩ := ih (u32 (i + stride)) (D.acc x1 x2 size i v) (by rw [u32_lt (by omega)]; omega)
      exact ⟨v', .step i v v' hi hv⟩
    · exact ⟨v, .done i v hi⟩

theorem dot_runs_exists {D : DotOps T V} {x1 x2 : Nat → T} {size nb : Nat} (hnb : 1 ≤ nb) (h0 : 1 ≤ size) (hs : size + 2048 * nb ≤ 2 ^ 32) (y : Nat → T) : ∃ y', D.Runs nb size x1 x2 y y' := by
  have h1 : ∀ c t, ∃ v, D.Loop x1 x2 size (u32 (2048 * nb)) (u32 (2048 * c + t)) D.zero v := fun c t => by
    rw [u32_lt (show 2048 * nb < 2 ^ 32 by omega)]
    exact loop_exists (by omega) hs size _ _ (by omega)
  choose vals hv using h1
  have h2 : ∀ c, ∃ m', Ends (dotPhases D.add (vals c) 4) (fun _ => D.zero) m' := fun c => ends_exists _ _
  choose m hm using h2
  exact ⟨fun e => if e < nb then dotLast D.add (m e) else y e, vals, m, fun c t _ _ => hv c t, fun c _ => ⟨_, hm c⟩, fun _ => rfl⟩

/-- Dot products can be executed. -/
theorem C85_execution_exists (D : DotOps T V) {tsize : Nat} (ht : tsize = 2 ∨ tsize = 4 ∨ tsize = 8) {sm size : Nat} (hsm : 1 ≤ sm) (h1 : 1 ≤ size) (hs : size + 8192 * sm ≤ 2 ^ 32) (x1 x2 y : Nat → T) :
    ∃ o, Dot D tsize sm size x1 x2 y o := by
  obtain ⟨b1, b2⟩ := dotBlocks_spec hsm h1 hs
  unfold Dot
  simp only [if_neg (show ¬ dotBlocks sm size = 0 by omega)]
  by_cases hone : dotBlocks sm size = 1
  · simp only [if_pos hone]
    obtain ⟨y', h⟩ := dot_runs_exists (D := D) (x1 := x1) (x2 := x2) (nb := 1) (by omega) h1 (by omega) y
    exact ⟨_, y', h, rfl⟩
  · simp only [if_neg hone]
    obtain ⟨z', h⟩ := dot_runs_exists (D := D) (x1 := x1) (x2 := x2) (nb := dotBlocks sm size) b1 h1 (by omega) y
    obtain ⟨o', ho⟩ := C84_execution_exists D.R ht (dotBlocks sm size) (a := 0) (x := z') (y := y) b1 (Nat.le_refl _) (by omega)
    exact ⟨_, 0, y, z', o', h, ho, rfl⟩

/-- **C85**: `2 ^ 32 - 2048` elements, on a device with 128 multiprocessors: the first thread never leaves its loop, since the increment of the index overflows. -/
theorem C85_hang_counterexample (D : DotOps T V) (tsize : Nat) (x1 x2 y : Nat → T) : dotBlocks 128 (2 ^ 32 - 2048) = 512 ∧ ∀ o, ¬ Dot D tsize 128 (2 ^ 32 - 2048) x1 x2 y o := by
  have hb : dotBlocks 128 (2 ^ 32 - 2048) = 512 := by decide
  refine ⟨hb, fun o h => ?_⟩
  unfold Dot at h
  rw [hb] at h
  simp only [show ¬ (512 : Nat) = 0 by omega, show ¬ (512 : Nat) = 1 by omega, if_false] at h
  obtain ⟨_, z, z', _, ⟨vals, m, hl, _⟩, _⟩ := h
  have key : ∀ i v v', D.Loop x1 x2 (2 ^ 32 - 2048) (u32 (2048 * 512)) i v v' → i % 2 ^ 20 = 0 → i < 2 ^ 32 → False := by
    intro i v v' h
    induction h with
    | done i v hi => intro h1 h2; omega
    | step i v v' hi _ ih =>
      intro h1 h2
      have e : u32 (2048 * 512) = 2 ^ 20 := by decide
      rw [e] at ih
      refine ih ?_ ?_
      · unfold u32; omega
      · unfold u32; omega
  exact key _ _ _ (hl 0 0 (by omega) (by omega)) (by decide) (by decide)

/-- **C85**: for more than `2 ^ 32 - 2048` elements, the number of thread blocks is zero, and the launch fails. -/
theorem C85_launch_counterexample (D : DotOps T V) {tsize sm size : Nat} (h : 2 ^ 32 - 2048 < size) (hs : size < 2 ^ 32) {x1 x2 y : Nat → T} {o : DotOut T} (hd : Dot D tsize sm size x1 x2 y o) : o = .fail := by
  have : dotBlocks sm size = 0 := by
    unfold dotBlocks
    have e : u32 (size + 2048) = size + 2048 - 2 ^ 32 := by unfold u32; omega
    generalize u32 (size + 2048) = w at e
    have h1 : 1 ≤ w := by omega
    have h2 : w ≤ 2048 := by omega
    clear e
    rw [sub32_le (by omega) h1]
    omega
  unfold Dot at hd
  rw [if_pos this] at hd
  exact hd

/-- Exact dot products of integers -/
def intDot : DotOps Int Int := { fma := fun a b c => a * b + c, add := fun a b => a + b, zero := 0, R := { red := fun a b => a + b, init := 0, toV := id, ofV := id } }

/-- 100000 elements on a device with 10 multiprocessors: 40 thread blocks -/
example (x1 x2 y : Nat → Int) : dotBlocks 10 100000 = 40 ∧ ∃ o, Dot intDot 4 10 100000 x1 x2 y o ∧
    o = .ok (.ok fun i => if i = 0 then ((Multiset.range 100000).map fun i => x1 i * x2 i).sum else y i) := by
  refine ⟨by decide, ?_⟩
  obtain ⟨o, ho⟩ := C85_execution_exists intDot (tsize := 4) (by omega) (sm := 10) (size := 100000) (by omega) (by omega) (by omega) x1 x2 y
  exact ⟨o, ho, C85_dot_exact (fun _ _ _ => rfl) (fun _ _ => rfl) rfl (fun _ _ => rfl) rfl (fun _ => rfl) (by omega) (by omega) (by omega) (by omega) ho⟩

end Verif.Cuda
