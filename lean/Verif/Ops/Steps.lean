import Verif.Ops.Build
import Verif.Ops.Algebra
/-!
# Correctness of each operation
-/
namespace Verif.Ops
open Verif.Var

variable {s s' : Store} {U U' : List Nat} {u ext base : Nat → Nat} {ev : M Unit}

/-! ## Generic lemmas -/

/-- Values of an operation on variables. -/
def V1 (s : Store) (k : Kind) (t : VType) (a0 : Nat) (l : Nat) (z : BitVec 64) : Prop :=
  ∃ x, Val s a0 l x ∧ sem1 k t (s.vars a0).type x = some z
@[inherit_doc V1] def V2 (s : Store) (k : Kind) (t : VType) (a0 a1 : Nat) (l : Nat) (z : BitVec 64) :
    Prop :=
  ∃ x y, Val s a0 l x ∧ Val s a1 l y ∧ sem2 k t (s.vars a0).type (s.vars a1).type x y = some z
@[inherit_doc V1] def V3 (s : Store) (k : Kind) (t : VType) (a0 a1 a2 : Nat) (l : Nat)
    (z : BitVec 64) : Prop :=
  ∃ x y w, Val s a0 l x ∧ Val s a1 l y ∧ Val s a2 l w ∧
    sem3 k t (s.vars a0).type (s.vars a1).type (s.vars a2).type x y w = some z

theorem evalLiteral_post (h : St s U u) {info : OpInfo} (hn : 0 < info.size) {f : FoldRes}
    {V : Nat → BitVec 64 → Prop}
    (hf : ∀ v, f = .val v → (info.type = .bool → norm .bool v = v) ∧
      ∀ l z, V l z → norm info.type v = z) :
    wlp (evalLiteral info f) s (Post s U u info.type info.size True V) := by
  cases f with
  | val v =>
    obtain ⟨h1, h2⟩ := hf v rfl
    refine wlp_mono (literal_post h hn h1) ?_
    rintro r s' ⟨p, _⟩
    exact p.mono (fun _ => trivial) (fun l z hz => (h2 l z hz).symm)
  | ub => exact wlp_stop
  | fail => exact wlp_abort
  | unmodelled => exact wlp_stop

/-- Replace the result by a literal. -/
theorem lit_as (h : St s U u) {b n : Nat} {t : VType} {x : BitVec 64} (hn : 0 < n)
    (hx : t = .bool → norm .bool x = x) {V : Nat → BitVec 64 → Prop}
    (hV : ∀ l z, V l z → z = norm t x) :
    wlp (varLiteral b t x n) s (Post s U u t n False V) := by
  refine wlp_mono (literal_post h hn hx) ?_
  rintro r s' ⟨p, _⟩
  exact p.mono False.elim hV

/-- Replace the result by an operand. -/
theorem resize_as (h : St s U u) {i n : Nat} (h0 : Operand s u i) (hn : 0 < n)
    (hle : (s.vars i).size ≤ n) {t : VType}
    (ht : (s.vars i).type = t) {V : Nat → BitVec 64 → Prop} (hV : ∀ l z, V l z → Val s i l z) :
    wlp (varResize ev i n) s (Post s U u t n False V) := by
  rw [← ht]
  exact wlp_mono (resize_post h h0 hn hle) (fun r s' p => p.mono False.elim hV)

theorem Post.ne {t : VType} {n : Nat} {lit : Prop} {V : Nat → BitVec 64 → Prop} {r : Nat}
    (h : Post s U u t n lit V r s') : r ≠ 0 := h.choose_spec.2.2.1.1

theorem info1 {info : OpInfo} {a0 : Nat} (h : InfoOK s [a0] info) :
    info.size = (s.vars a0).size := by simpa using h.size
theorem info2 {info : OpInfo} {a0 a1 : Nat} (h : InfoOK s [a0, a1] info) :
    info.size = max (s.vars a0).size (s.vars a1).size := by
  have := h.size
  simp only [List.map_cons, List.map_nil, List.foldl_cons, List.foldl_nil] at this
  omega
theorem info3 {info : OpInfo} {a0 a1 a2 : Nat} (h : InfoOK s [a0, a1, a2] info) :
    info.size = max (max (s.vars a0).size (s.vars a1).size) (s.vars a2).size := by
  have := h.size
  simp only [List.map_cons, List.map_nil, List.foldl_cons, List.foldl_nil] at this
  omega

/-- Kinds of nodes that are operations. -/
def IsOp (k : Kind) : Prop := k ≠ .literal ∧ k ≠ .evaluated

/-- The end of a unary operation. -/
theorem finish1_post (h : St s U u) {info : OpInfo} {k : Kind} (hk : IsOp k) {a0 : Nat}
    (h0 : Operand s u a0) :
    wlp (finish1 ev info k a0 0) s (fun r s' => (info.size ≠ 0 → Post s U u info.type info.size
      False (V1 s k info.type a0) r s')) := by
  unfold finish1
  refine wlp_ite (fun e => wlp_pure (fun hn => ?_)) (fun _ => ?_)
  · rcases e with e | e
    · exact absurd rfl e
    · exact absurd e hn
  refine wlp_ite (fun _ => wlp_stop) (fun _ => ?_)
  exact wlp_mono (node1_post h h0 hk.1 hk.2) (fun _ _ p _ => p)

theorem finish2_post (h : St s U u) {info : OpInfo} {k : Kind} (hk : IsOp k) {a0 a1 : Nat}
    (h0 : Operand s u a0) (h1 : Operand s u a1) (hn : 0 < info.size) :
    wlp (finish2 ev info k a0 a1 0) s (Post s U u info.type info.size
      False (V2 s k info.type a0 a1)) := by
  unfold finish2
  refine wlp_ite (fun e => ?_) (fun _ => ?_)
  · rcases e with e | e
    · exact absurd rfl e
    · omega
  refine wlp_ite (fun _ => wlp_stop) (fun _ => ?_)
  exact node2_post h h0 h1 hk.1 hk.2

theorem finish3_post (h : St s U u) {info : OpInfo} {k : Kind} (hk : IsOp k) {a0 a1 a2 : Nat}
    (h0 : Operand s u a0) (h1 : Operand s u a1) (h2 : Operand s u a2) (hn : 0 < info.size) :
    wlp (finish3 ev info k a0 a1 a2 0) s (Post s U u info.type info.size
      False (V3 s k info.type a0 a1 a2)) := by
  unfold finish3
  refine wlp_ite (fun e => ?_) (fun _ => ?_)
  · rcases e with e | e
    · exact absurd rfl e
    · omega
  refine wlp_ite (fun _ => wlp_stop) (fun _ => ?_)
  exact node3_post h h0 h1 h2 hk.1 hk.2

theorem finish1_done {info : OpInfo} {k : Kind} {a0 r : Nat} (hr : r ≠ 0)
    {Q : Nat → Store → Prop} (hQ : Q r s) : wlp (finish1 ev info k a0 r) s Q := by
  unfold finish1
  rw [if_pos (.inl hr)]; exact wlp_pure hQ
theorem finish2_done {info : OpInfo} {k : Kind} {a0 a1 r : Nat} (hr : r ≠ 0)
    {Q : Nat → Store → Prop} (hQ : Q r s) : wlp (finish2 ev info k a0 a1 r) s Q := by
  unfold finish2
  rw [if_pos (.inl hr)]; exact wlp_pure hQ
theorem finish3_done {info : OpInfo} {k : Kind} {a0 a1 a2 r : Nat} (hr : r ≠ 0)
    {Q : Nat → Store → Prop} (hQ : Q r s) : wlp (finish3 ev info k a0 a1 a2 r) s Q := by
  unfold finish3
  rw [if_pos (.inl hr)]; exact wlp_pure hQ

/-- Unary operations. -/
theorem unary_post (h : St s U u) {k : Kind} (hk : IsOp k) {f : VType → BitVec 64 → FoldRes}
    {a0 : Nat} (h0 : Operand s u a0) (ht : (s.vars a0).type ≠ .void)
    (hf : (s.vars a0).kind = .literal → ∀ v, f (s.vars a0).type (s.vars a0).literal = .val v →
      ((s.vars a0).type = .bool → norm .bool v = v) ∧
      ∀ z, sem1 k (s.vars a0).type (s.vars a0).type (s.vars a0).literal = some z →
        norm (s.vars a0).type v = z) :
    wlp (unary ev k f a0) s (Post s U u (s.vars a0).type (s.vars a0).size
      (s.constProp = true ∧ (s.vars a0).kind = .literal) (V1 s k (s.vars a0).type a0)) := by
  unfold unary
  refine wlp_bind (wlp_mono (check_post h (by simp) (by simpa using ⟨h0, ht⟩)) ?_)
  rintro info s' ⟨rfl, hi, hn⟩
  refine wlp_bind (wlp_getStore ?_)
  have et := hi.type _ _ rfl
  have es := info1 hi
  by_cases hc : (info.simplify && info.literal) = true
  · dsimp only
    rw [if_pos hc]
    refine wlp_bind ?_
    simp only [Bool.and_eq_true] at hc
    have hl := hi.literal.1 hc.2 a0 (by simp)
    refine wlp_mono (evalLiteral_post h hn (V := V1 s' k (s'.vars a0).type a0) ?_) ?_
    · intro v hv
      obtain ⟨b1, b2⟩ := hf hl v hv
      rw [et]
      refine ⟨b1, ?_⟩
      rintro l z ⟨x, hx, hz⟩
      rw [hx.literal_inv hl, h0.lit hl] at hz
      exact b2 z hz
    · intro r s1 p
      rw [et, es] at p
      exact finish1_done p.ne (p.mono (fun _ => trivial) (fun _ _ => id))
  · dsimp only
    rw [if_neg hc]
    refine wlp_bind (wlp_pure ?_)
    refine wlp_mono (finish1_post h hk h0) ?_
    intro r s1 p
    have p := p (by omega)
    rw [et, es] at p
    refine p.mono ?_ (fun _ _ => id)
    rintro ⟨c1, c2⟩
    have l1 := hi.literal.2 (by simpa using c2)
    exact hc (by rw [l1, hi.simplify c1 l1]; rfl)

/-- Binary operations; `V` may restrict the threads that are considered. -/
theorem binaryV_post (h : St s U u) {k : Kind} (hk : IsOp k) {rt : VType → VType}
    {f : VType → BitVec 64 → BitVec 64 → FoldRes}
    {simp : OpInfo → Var → Var → Store → Option (M Nat)} {a0 a1 : Nat}
    {V : Nat → BitVec 64 → Prop}
    (h0 : Operand s u a0) (h1 : Operand s u a1) (ht0 : (s.vars a0).type ≠ .void)
    (ht1 : (s.vars a1).type ≠ .void)
    (hV : ∀ l z, V l z → V2 s k (rt (s.vars a0).type) a0 a1 l z)
    (hf : (s.vars a0).kind = .literal → (s.vars a1).kind = .literal → ∀ v,
      f (s.vars a0).type (s.vars a0).literal (s.vars a1).literal = .val v →
      (rt (s.vars a0).type = .bool → norm .bool v = v) ∧
      ∀ l z, V l z → norm (rt (s.vars a0).type) v = z)
    (hs : ∀ info : OpInfo, info.type = rt (s.vars a0).type →
      info.size = max (s.vars a0).size (s.vars a1).size → 0 < info.size →
      ((s.vars a0).size = 1 ∨ (s.vars a0).size = info.size) →
      ((s.vars a1).size = 1 ∨ (s.vars a1).size = info.size) → ∀ m,
      simp info (s.vars a0) (s.vars a1) s = some m →
      wlp m s (Post s U u info.type info.size False V)) :
    wlp (binary ev k rt f simp a0 a1) s (Post s U u (rt (s.vars a0).type)
      (max (s.vars a0).size (s.vars a1).size)
      (s.constProp = true ∧ (s.vars a0).kind = .literal ∧ (s.vars a1).kind = .literal) V) := by
  unfold binary
  refine wlp_bind (wlp_mono (check_post h (by simp) (by simpa using ⟨⟨h0, ht0⟩, h1, ht1⟩)) ?_)
  rintro info s' ⟨rfl, hi, hn⟩
  have et := hi.type _ _ rfl
  have es := info2 hi
  have notlit : ¬ (info.simplify = true ∧ info.literal = true) → ¬ (s'.constProp = true ∧
      (s'.vars a0).kind = .literal ∧ (s'.vars a1).kind = .literal) := by
    rintro hn ⟨c1, c2, c3⟩
    have l1 := hi.literal.2 (by simpa using ⟨c2, c3⟩)
    exact hn ⟨hi.simplify c1 l1, l1⟩
  refine wlp_bind (wlp_getStore ?_)
  dsimp only
  by_cases hc : info.simplify = true
  · rw [if_pos hc]
    by_cases hl : info.literal = true
    · rw [if_pos hl]
      refine wlp_bind ?_
      have l0 := hi.literal.1 hl a0 (by simp)
      have l1 := hi.literal.1 hl a1 (by simp)
      refine wlp_mono (evalLiteral_post h (info := { info with type := rt info.type }) hn
        (V := V) ?_) ?_
      · intro v hv
        obtain ⟨b1, b2⟩ := hf l0 l1 v hv
        dsimp only
        rw [et]
        exact ⟨b1, b2⟩
      · intro r s1 p
        dsimp only at p
        rw [et, es] at p
        exact finish2_done p.ne (p.mono (fun _ => trivial) (fun _ _ => id))
    · rw [if_neg hl]
      have nl := notlit (fun e => hl e.2)
      cases hm : simp { info with type := rt info.type } (s'.vars a0) (s'.vars a1) s' with
      | some m =>
        refine wlp_bind (wlp_mono (hs { info with type := rt info.type } (congrArg rt et) es hn (hi.sizes a0 (by simp))
          (hi.sizes a1 (by simp)) m hm) ?_)
        intro r s1 p
        dsimp only at p
        rw [et, es] at p
        exact finish2_done p.ne (p.mono (fun e => nl e) (fun _ _ => id))
      | none =>
        refine wlp_bind (wlp_pure ?_)
        refine wlp_mono (finish2_post h hk h0 h1 hn) ?_
        intro r s1 p
        dsimp only at p
        rw [et, es] at p
        exact p.mono (fun e => nl e) hV
  · rw [if_neg hc]
    have nl := notlit (fun e => hc e.1)
    refine wlp_bind (wlp_pure ?_)
    refine wlp_mono (finish2_post h hk h0 h1 hn) ?_
    intro r s1 p
    dsimp only at p
    rw [et, es] at p
    exact p.mono (fun e => nl e) hV

/-- Binary operations. -/
theorem binary_post (h : St s U u) {k : Kind} (hk : IsOp k) {rt : VType → VType}
    {f : VType → BitVec 64 → BitVec 64 → FoldRes}
    {simp : OpInfo → Var → Var → Store → Option (M Nat)} {a0 a1 : Nat}
    (h0 : Operand s u a0) (h1 : Operand s u a1) (ht0 : (s.vars a0).type ≠ .void)
    (ht1 : (s.vars a1).type ≠ .void)
    (hf : (s.vars a0).kind = .literal → (s.vars a1).kind = .literal → ∀ v,
      f (s.vars a0).type (s.vars a0).literal (s.vars a1).literal = .val v →
      (rt (s.vars a0).type = .bool → norm .bool v = v) ∧
      ∀ z, sem2 k (rt (s.vars a0).type) (s.vars a0).type (s.vars a1).type (s.vars a0).literal
        (s.vars a1).literal = some z → norm (rt (s.vars a0).type) v = z)
    (hs : ∀ info : OpInfo, info.type = rt (s.vars a0).type →
      info.size = max (s.vars a0).size (s.vars a1).size → 0 < info.size →
      ((s.vars a0).size = 1 ∨ (s.vars a0).size = info.size) →
      ((s.vars a1).size = 1 ∨ (s.vars a1).size = info.size) → ∀ m,
      simp info (s.vars a0) (s.vars a1) s = some m →
      wlp m s (Post s U u info.type info.size False (V2 s k info.type a0 a1))) :
    wlp (binary ev k rt f simp a0 a1) s (Post s U u (rt (s.vars a0).type)
      (max (s.vars a0).size (s.vars a1).size)
      (s.constProp = true ∧ (s.vars a0).kind = .literal ∧ (s.vars a1).kind = .literal)
      (V2 s k (rt (s.vars a0).type) a0 a1)) := by
  refine binaryV_post h hk h0 h1 ht0 ht1 (fun _ _ => id) ?_ ?_
  · intro l0 l1 v hv
    obtain ⟨b1, b2⟩ := hf l0 l1 v hv
    refine ⟨b1, ?_⟩
    rintro l z ⟨x, y, hx, hy, hz⟩
    rw [hx.literal_inv l0, h0.lit l0, hy.literal_inv l1, h1.lit l1] at hz
    exact b2 z hz
  · intro info et
    have := hs info et
    rw [et] at this ⊢
    exact this

/-! ## Literal operands -/

theorem isInt_ne {t : VType} (h : t.isInt = true) : t ≠ .void ∧ t ≠ .bool ∧ t.isFloat = false := by
  revert h; cases t <;> decide

theorem zero_val {a l : Nat} {x : BitVec 64} (hz : isZero (s.vars a) = true) (hv : Val s a l x) :
    x = 0#64 := by
  simp only [isZero, Var.isLiteral, Bool.and_eq_true, beq_iff_eq] at hz
  rw [hv.literal_inv hz.1, hz.2, norm_zero]

theorem anyZero_val {a l : Nat} {x : BitVec 64} (ht : (s.vars a).type.isInt = true)
    (hz : isAnyZero (s.vars a) = true) (hv : Val s a l x) : x = 0#64 := by
  refine zero_val ?_ hv
  unfold isAnyZero at hz
  unfold isZero
  revert hz ht
  cases (s.vars a).type <;> first | exact fun _ h => h | exact fun h => absurd h (by decide)

theorem lit_val {a l : Nat} {x : BitVec 64} (h0 : Operand s u a) (hl : (s.vars a).kind = .literal)
    (hv : Val s a l x) : x = (s.vars a).literal := by
  rw [hv.literal_inv hl, h0.lit hl]

theorem one_val {a l : Nat} {x : BitVec 64} (h0 : Operand s u a)
    (ht : (s.vars a).type.isInt = true ∨ (s.vars a).type = .bool)
    (hz : isOne (s.vars a) = true) (hv : Val s a l x) : x = 1#64 := by
  simp only [isOne, Var.isLiteral, Bool.and_eq_true, beq_iff_eq] at hz
  rw [lit_val h0 hz.1 hv, hz.2]
  rcases ht with ht | ht
  · revert ht
    cases (s.vars a).type <;> first | exact fun _ => rfl | exact fun h => absurd h (by decide)
  · rw [ht]; rfl

theorem max_val {a l : Nat} {x : BitVec 64} (h0 : Operand s u a)
    (hz : isMax (s.vars a) = true) (hv : Val s a l x) : x = typeMax (s.vars a).type := by
  simp only [isMax, Var.isLiteral, Bool.and_eq_true, beq_iff_eq] at hz
  rw [lit_val h0 hz.1 hv, hz.2]

theorem min_val {a l : Nat} {x : BitVec 64} (h0 : Operand s u a)
    (hz : isMin (s.vars a) = true) (hv : Val s a l x) : x = typeMin (s.vars a).type := by
  simp only [isMin, Var.isLiteral, Bool.and_eq_true, beq_iff_eq] at hz
  rw [lit_val h0 hz.1 hv, hz.2]

theorem same_val {a l : Nat} {x y : BitVec 64} (hx : Val s a l x) (hy : Val s a l y) : x = y :=
  hx.unique hy

/-! ## Integer operations -/

/-- Two integer operands of the same type. -/
structure Ints (s : Store) (u : Nat → Nat) (a0 a1 : Nat) : Prop where
  h0 : Operand s u a0
  h1 : Operand s u a1
  int : (s.vars a0).type.isInt = true
  same : (s.vars a1).type = (s.vars a0).type

/-- What a binary operation guarantees. -/
def Post2 (s : Store) (U : List Nat) (u : Nat → Nat) (k : Kind) (t : VType) (a0 a1 : Nat) :
    Nat → Store → Prop :=
  Post s U u t (max (s.vars a0).size (s.vars a1).size)
    (s.constProp = true ∧ (s.vars a0).kind = .literal ∧ (s.vars a1).kind = .literal)
    (V2 s k t a0 a1)

theorem int_post (h : St s U u) {k : Kind} (hk : IsOp k)
    {f : VType → BitVec 64 → BitVec 64 → FoldRes}
    {simp : OpInfo → Var → Var → Store → Option (M Nat)} {a0 a1 : Nat} (hi : Ints s u a0 a1)
    (hf : ∀ {t : VType} {x y v z : BitVec 64}, t.isInt = true → f t x y = .val v →
      sem2 k t t t x y = some z → norm t v = z)
    (hs : ∀ info : OpInfo, info.type = (s.vars a0).type → 0 < info.size →
      info.size = max (s.vars a0).size (s.vars a1).size → ∀ m,
      simp info (s.vars a0) (s.vars a1) s = some m →
      wlp m s (Post s U u (s.vars a0).type info.size False (fun l z => ∃ x y, Val s a0 l x ∧
        Val s a1 l y ∧ sem2 k (s.vars a0).type (s.vars a0).type (s.vars a0).type x y = some z))) :
    wlp (binary ev k id f simp a0 a1) s (Post2 s U u k (s.vars a0).type a0 a1) := by
  obtain ⟨n1, n2, n3⟩ := isInt_ne hi.int
  refine binary_post h hk hi.h0 hi.h1 n1 (by rw [hi.same]; exact n1) ?_ ?_
  · intro _ _ v hv
    refine ⟨fun e => absurd e n2, fun z hz => ?_⟩
    rw [hi.same] at hz
    exact hf hi.int hv hz
  · intro info e1 e2 e3 _ _ m hm
    have := hs info e1 e3 e2 m hm
    rw [show info.type = (s.vars a0).type from e1]
    refine wlp_mono this (fun r s' p => p.mono id ?_)
    rintro l z ⟨x, y, hx, hy, hz⟩
    rw [hi.same] at hz
    exact ⟨x, y, hx, hy, hz⟩

theorem opt_some {α : Type} {c : Prop} [Decidable c] {a : α} {b : Option α} {m : α}
    (h : (if c then some a else b) = some m) : (c ∧ a = m) ∨ (¬ c ∧ b = some m) := by
  split at h
  · cases h; exact .inl ⟨‹_›, rfl⟩
  · exact .inr ⟨‹_›, h⟩

theorem isOp {k : Kind} (h : k ≠ .literal ∧ k ≠ .evaluated := by decide) : IsOp k := h

theorem add_post (h : St s U u) {a0 a1 : Nat} (hi : Ints s u a0 a1) :
    wlp (varAdd ev a0 a1) s (Post2 s U u .add (s.vars a0).type a0 a1) := by
  refine int_post h isOp hi fold_add ?_
  intro info et hn es m hm
  rcases opt_some hm with ⟨hc, rfl⟩ | ⟨_, hm⟩
  · refine resize_as h hi.h1 hn (by omega) hi.same ?_
    rintro l z ⟨x, y, hx, hy, hz⟩
    rw [anyZero_val hi.int hc hx] at hz
    rw [add_zero_left hz, ← hi.same, hy.norm]; exact hy
  rcases opt_some hm with ⟨hc, rfl⟩ | ⟨_, hm⟩
  · refine resize_as h hi.h0 hn (by omega) rfl ?_
    rintro l z ⟨x, y, hx, hy, hz⟩
    rw [anyZero_val (by rw [hi.same]; exact hi.int) hc hy] at hz
    rw [add_zero_right hz, hx.norm]; exact hx
  cases hm

theorem sub_post (h : St s U u) {a0 a1 : Nat} (hi : Ints s u a0 a1) :
    wlp (varSub ev a0 a1) s (Post2 s U u .sub (s.vars a0).type a0 a1) := by
  refine int_post h isOp hi fold_sub ?_
  intro info et hn es m hm
  rcases opt_some hm with ⟨hc, rfl⟩ | ⟨_, hm⟩
  · refine resize_as h hi.h0 hn (by omega) rfl ?_
    rintro l z ⟨x, y, hx, hy, hz⟩
    rw [anyZero_val (by rw [hi.same]; exact hi.int) hc hy] at hz
    rw [sub_zero hz, hx.norm]; exact hx
  rcases opt_some hm with ⟨hc, rfl⟩ | ⟨_, hm⟩
  · unfold makeZero
    rw [et]
    refine lit_as h hn (fun e => absurd e (isInt_ne hi.int).2.1) ?_
    rintro l z ⟨x, y, hx, hy, hz⟩
    rw [← hc.1] at hy
    rw [hx.unique hy] at hz
    exact sub_self hz
  cases hm

theorem shl_post (h : St s U u) {a0 a1 : Nat} (hi : Ints s u a0 a1) :
    wlp (varShl ev a0 a1) s (Post2 s U u .shl (s.vars a0).type a0 a1) := by
  refine int_post h isOp hi fold_shl ?_
  intro info et hn es m hm
  rcases opt_some hm with ⟨hc, rfl⟩ | ⟨_, hm⟩
  · refine resize_as h hi.h0 hn (by omega) rfl ?_
    rintro l z ⟨x, y, hx, hy, hz⟩
    rcases Bool.or_eq_true _ _ ▸ hc with hc | hc
    · have := zero_val hc hx
      rw [this] at hz hx
      rw [shl_zero_left hz]; exact hx
    · rw [zero_val hc hy] at hz
      rw [shl_zero_right hz, hx.norm]; exact hx
  cases hm

theorem shr_post (h : St s U u) {a0 a1 : Nat} (hi : Ints s u a0 a1) :
    wlp (varShr ev a0 a1) s (Post2 s U u .shr (s.vars a0).type a0 a1) := by
  refine int_post h isOp hi fold_shr ?_
  intro info et hn es m hm
  rcases opt_some hm with ⟨hc, rfl⟩ | ⟨_, hm⟩
  · refine resize_as h hi.h0 hn (by omega) rfl ?_
    rintro l z ⟨x, y, hx, hy, hz⟩
    rcases Bool.or_eq_true _ _ ▸ hc with hc | hc
    · have := zero_val hc hx
      rw [this] at hz hx
      rw [shr_zero_left hz]; exact hx
    · rw [zero_val hc hy] at hz
      rw [shr_zero_right hz, hx.norm]; exact hx
  cases hm

theorem mulHi_post (h : St s U u) {a0 a1 : Nat} (hi : Ints s u a0 a1) :
    wlp (varMulHi ev a0 a1) s (Post2 s U u .mulHi (s.vars a0).type a0 a1) := by
  refine int_post h isOp hi fold_mulHi ?_
  intro info et hn es m hm
  rcases opt_some hm with ⟨hc, rfl⟩ | ⟨_, hm⟩
  · refine resize_as h hi.h0 hn (by omega) rfl ?_
    rintro l z ⟨x, y, hx, hy, hz⟩
    have := zero_val hc hx
    rw [this] at hz hx
    rw [mulHi_zero_left hz]; exact hx
  rcases opt_some hm with ⟨hc, rfl⟩ | ⟨_, hm⟩
  · refine resize_as h hi.h1 hn (by omega) hi.same ?_
    rintro l z ⟨x, y, hx, hy, hz⟩
    have := zero_val hc hy
    rw [this] at hz hy
    rw [mulHi_zero_right hz]; exact hy
  cases hm

theorem min_post (h : St s U u) {a0 a1 : Nat} (hi : Ints s u a0 a1) :
    wlp (varMin ev a0 a1) s (Post2 s U u .min (s.vars a0).type a0 a1) := by
  refine int_post h isOp hi fold_min ?_
  intro info et hn es m hm
  rcases opt_some hm with ⟨hc, rfl⟩ | ⟨_, hm⟩
  · refine resize_as h hi.h0 hn (by omega) rfl ?_
    rintro l z ⟨x, y, hx, hy, hz⟩
    rw [← hc] at hy
    rw [← hx.unique hy] at hz
    rw [min_self hz, hx.norm]; exact hx
  rcases opt_some hm with ⟨hc, rfl⟩ | ⟨_, hm⟩
  · refine resize_as h hi.h1 hn (by omega) hi.same ?_
    rintro l z ⟨x, y, hx, hy, hz⟩
    have e : z = norm (s.vars a0).type y := by
      refine min_right (fun _ => ?_) hz
      simp only [Bool.or_eq_true, Bool.and_eq_true] at hc
      rcases hc with hc | ⟨_, hc⟩
      · rw [max_val hi.h0 hc hx]; exact (cInt_range hi.int y).2
      · rw [min_val hi.h1 hc hy, hi.same]; exact (cInt_range hi.int x).1
    rw [e, ← hi.same, hy.norm]; exact hy
  rcases opt_some hm with ⟨hc, rfl⟩ | ⟨_, hm⟩
  · refine resize_as h hi.h0 hn (by omega) rfl ?_
    rintro l z ⟨x, y, hx, hy, hz⟩
    have e : z = norm (s.vars a0).type x := by
      refine min_left (fun _ => ?_) hz
      simp only [Bool.or_eq_true, Bool.and_eq_true] at hc
      rcases hc with hc | ⟨_, hc⟩
      · rw [max_val hi.h1 hc hy, hi.same]; exact (cInt_range hi.int x).2
      · rw [min_val hi.h0 hc hx]; exact (cInt_range hi.int y).1
    rw [e, hx.norm]; exact hx
  cases hm

theorem max_post (h : St s U u) {a0 a1 : Nat} (hi : Ints s u a0 a1) :
    wlp (varMax ev a0 a1) s (Post2 s U u .max (s.vars a0).type a0 a1) := by
  refine int_post h isOp hi fold_max ?_
  intro info et hn es m hm
  rcases opt_some hm with ⟨hc, rfl⟩ | ⟨_, hm⟩
  · refine resize_as h hi.h0 hn (by omega) rfl ?_
    rintro l z ⟨x, y, hx, hy, hz⟩
    rw [← hc] at hy
    rw [← hx.unique hy] at hz
    rw [max_self hz, hx.norm]; exact hx
  rcases opt_some hm with ⟨hc, rfl⟩ | ⟨_, hm⟩
  · refine resize_as h hi.h1 hn (by omega) hi.same ?_
    rintro l z ⟨x, y, hx, hy, hz⟩
    have e : z = norm (s.vars a0).type y := by
      refine max_right (fun _ => ?_) hz
      simp only [Bool.or_eq_true, Bool.and_eq_true] at hc
      rcases hc with hc | ⟨_, hc⟩
      · rw [min_val hi.h0 hc hx]; exact (cInt_range hi.int y).1
      · rw [max_val hi.h1 hc hy, hi.same]; exact (cInt_range hi.int x).2
    rw [e, ← hi.same, hy.norm]; exact hy
  rcases opt_some hm with ⟨hc, rfl⟩ | ⟨_, hm⟩
  · refine resize_as h hi.h0 hn (by omega) rfl ?_
    rintro l z ⟨x, y, hx, hy, hz⟩
    have e : z = norm (s.vars a0).type x := by
      refine max_left (fun _ => ?_) hz
      simp only [Bool.or_eq_true, Bool.and_eq_true] at hc
      rcases hc with hc | ⟨_, hc⟩
      · rw [min_val hi.h1 hc hy, hi.same]; exact (cInt_range hi.int x).1
      · rw [max_val hi.h0 hc hx]; exact (cInt_range hi.int y).2
    rw [e, hx.norm]; exact hx
  cases hm

/-! ## Strength reduction -/

/-- A temporary literal, an operation on it, and its release. -/
theorem tmp_post (h : St s U u) {b n a : Nat} {t : VType} {x : BitVec 64} (hn : 0 < n)
    (ha : Operand s u a) (hta : (s.vars a).type = t) (hb : t = .bool → norm .bool x = x)
    (hsz : n = max (s.vars a).size n) {k : Kind} {op : Nat → M Nat}
    (hop : ∀ {s1 : Store} {U1 : List Nat} {u1 : Nat → Nat} {c : Nat}, St s1 U1 u1 →
      Operand s1 u1 a → Operand s1 u1 c → (s1.vars a).type = t → (s1.vars c).type = t →
      wlp (op c) s1 (Post2 s1 U1 u1 k t a c))
    {V : Nat → BitVec 64 → Prop}
    (hV : ∀ l z, V l z → ∃ y, Val s a l y ∧ sem2 k t t t y (norm t x) = some z) :
    wlp (do let c ← varLiteral b t x n; let r ← op c; decRef c; pure r) s
      (Post s U u t n False V) := by
  refine wlp_bind (wlp_mono (literal_post h hn hb) ?_)
  rintro c s1 ⟨p, _, _, hkeep⟩
  have oc := p.operand hn
  obtain ⟨U1, a1, a2, a3, a4, a5, a6, a7, a8, a9, a10⟩ := p
  have al := h.alive ha.held
  obtain ⟨b1, b2⟩ := frame_body h.inv a2 ha.held al
  have oa : Operand s1 (plus u [c]) a := ha.keep h a2 hkeep (plus_pos_left ha.held)
  have ta : (s1.vars a).type = t := by rw [(body_fields b2).2.1, hta]
  have sa : (s1.vars a).size = (s.vars a).size := (hkeep a al).1
  refine wlp_bind (wlp_mono (hop a1 oa oc ta a4) ?_)
  intro r s2 p2
  refine wlp_bind ?_
  unfold Post2 at p2
  rw [sa, a5, ← hsz] at p2
  have p2' : Post s1 U1 (plus u [c]) t n False V r s2 := by
    refine p2.mono False.elim ?_
    intro l z hz
    obtain ⟨y, hy, hz⟩ := hV l z hz
    obtain ⟨_, _, _, d4⟩ := held_keep h.inv a1.inv a2 ha.held al
    refine ⟨y, norm t x, d4 l y hy, a9 l _ rfl, ?_⟩
    rw [ta, a4]; exact hz
  refine wlp_mono (p2'.release (fun P hP _ => by rw [a5]; exact hP.1)) ?_
  intro _ s3 p3
  exact wlp_pure (p3.before a2 a10)

theorem shift_post (h : St s U u) {info : OpInfo} {a : Nat} {t : VType} (hn : 0 < info.size)
    (ha : Operand s u a) (ht : t.isInt = true) (hta : (s.vars a).type = t) (et : info.type = t)
    (hsz : info.size = max (s.vars a).size info.size) {amount : BitVec 64} {shl : Bool}
    {V : Nat → BitVec 64 → Prop}
    (hV : ∀ l z, V l z → ∃ y, Val s a l y ∧ sem2 (if shl then .shl else .shr) t t t y
      (norm t (BitVec.ofNat 64 (Nat.log2 amount.toNat))) = some z) :
    wlp (varShift ev shl info a amount) s (Post s U u t info.size False V) := by
  unfold varShift
  rw [et]
  cases shl with
  | true =>
    refine tmp_post (k := .shl) (op := fun c => varShl ev a c) h hn ha hta
      (fun e => absurd e (isInt_ne ht).2.1) hsz ?_ hV
    intro s1 U1 u1 c h1 o1 o2 t1 t2
    have := shl_post (ev := ev) h1 (a0 := a) (a1 := c) ⟨o1, o2, by rw [t1]; exact ht, by rw [t1, t2]⟩
    rw [t1] at this; exact this
  | false =>
    refine tmp_post (k := .shr) (op := fun c => varShr ev a c) h hn ha hta
      (fun e => absurd e (isInt_ne ht).2.1) hsz ?_ hV
    intro s1 U1 u1 c h1 o1 o2 t1 t2
    have := shr_post (ev := ev) h1 (a0 := a) (a1 := c) ⟨o1, o2, by rw [t1]; exact ht, by rw [t1, t2]⟩
    rw [t1] at this; exact this

theorem mul_post (h : St s U u) {a0 a1 : Nat} (hi : Ints s u a0 a1) :
    wlp (varMul ev a0 a1) s (Post2 s U u .mul (s.vars a0).type a0 a1) := by
  have hi1 : (s.vars a1).type.isInt = true := by rw [hi.same]; exact hi.int
  refine int_post h isOp hi fold_mul ?_
  intro info et hn es m hm
  rcases opt_some hm with ⟨hc, rfl⟩ | ⟨_, hm⟩
  · refine resize_as h hi.h1 hn (by omega) hi.same ?_
    rintro l z ⟨x, y, hx, hy, hz⟩
    simp only [Bool.or_eq_true, Bool.and_eq_true] at hc
    rcases hc with hc | ⟨hc, _⟩
    · rw [one_val hi.h0 (.inl hi.int) hc hx] at hz
      rw [mul_one_left hz, ← hi.same, hy.norm]; exact hy
    · have := anyZero_val hi1 hc hy
      rw [this] at hz hy
      rw [mul_comm'] at hz
      rw [mul_zero_left hz]; exact hy
  rcases opt_some hm with ⟨hc, rfl⟩ | ⟨_, hm⟩
  · refine resize_as h hi.h0 hn (by omega) rfl ?_
    rintro l z ⟨x, y, hx, hy, hz⟩
    simp only [Bool.or_eq_true, Bool.and_eq_true] at hc
    rcases hc with hc | ⟨hc, _⟩
    · rw [one_val hi.h1 (.inl hi1) hc hy, mul_comm'] at hz
      rw [mul_one_left hz, hx.norm]; exact hx
    · have := anyZero_val hi.int hc hx
      rw [this] at hz hx
      rw [mul_zero_left hz]; exact hx
  rcases opt_some hm with ⟨hc, rfl⟩ | ⟨_, hm⟩
  · simp only [Var.isLiteral, Bool.and_eq_true, beq_iff_eq] at hc
    refine shift_post h hn hi.h1 hi.int hi.same et (by omega) ?_
    rintro l z ⟨x, y, hx, hy, hz⟩
    refine ⟨y, hy, ?_⟩
    obtain ⟨k, e1, e2, e3⟩ := pow2_spec hc.2 (hi.h0.lit hc.1.2)
    rw [lit_val hi.h0 hc.1.2 hx] at hz
    rw [← e1]
    exact mul_pow2 e2 e3 hz
  rcases opt_some hm with ⟨hc, rfl⟩ | ⟨_, hm⟩
  · simp only [Var.isLiteral, Bool.and_eq_true, beq_iff_eq] at hc
    refine shift_post h hn hi.h0 hi.int rfl et (by omega) ?_
    rintro l z ⟨x, y, hx, hy, hz⟩
    refine ⟨x, hx, ?_⟩
    obtain ⟨k, e1, e2, e3⟩ := pow2_spec (t := (s.vars a0).type) hc.2
      (by have := hi.h1.lit hc.1.2; rwa [hi.same] at this)
    rw [lit_val hi.h1 hc.1.2 hy, mul_comm'] at hz
    rw [← e1]
    exact mul_pow2 e2 e3 hz
  cases hm

theorem div_post (h : St s U u) {a0 a1 : Nat} (hi : Ints s u a0 a1) :
    wlp (varDiv ev a0 a1) s (Post2 s U u .div (s.vars a0).type a0 a1) := by
  have hi1 : (s.vars a1).type.isInt = true := by rw [hi.same]; exact hi.int
  refine int_post h isOp hi fold_div ?_
  intro info et hn es m hm
  rcases opt_some hm with ⟨hc, rfl⟩ | ⟨_, hm⟩
  · refine resize_as h hi.h0 hn (by omega) rfl ?_
    rintro l z ⟨x, y, hx, hy, hz⟩
    rw [one_val hi.h1 (.inl hi1) hc hy] at hz
    rw [div_one hz, hx.norm]; exact hx
  rcases opt_some hm with ⟨hc, rfl⟩ | ⟨_, hm⟩
  · simp only [Var.isLiteral, Bool.and_eq_true, beq_iff_eq] at hc
    refine shift_post h hn hi.h0 hi.int rfl et (by omega) ?_
    rintro l z ⟨x, y, hx, hy, hz⟩
    refine ⟨x, hx, ?_⟩
    obtain ⟨k, e1, e2, e3⟩ := pow2_spec (t := (s.vars a0).type) hc.2
      (by have := hi.h1.lit hc.1.2; rwa [hi.same] at this)
    rw [lit_val hi.h1 hc.1.2 hy] at hz
    rw [← e1]
    exact div_pow2 (by rw [← et]; exact hc.1.1) e2 e3 hz
  rcases opt_some hm with ⟨hc, rfl⟩ | ⟨_, hm⟩
  · exact wlp_stop
  rcases opt_some hm with ⟨hc, rfl⟩ | ⟨_, hm⟩
  · rw [et]
    refine lit_as h hn (fun e => absurd e (isInt_ne hi.int).2.1) ?_
    rintro l z ⟨x, y, hx, hy, hz⟩
    rw [← hc.1] at hy
    rw [hx.unique hy] at hz
    exact div_self hz
  cases hm

end Verif.Ops
