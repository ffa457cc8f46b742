import Verif.Ops.Steps
/-!
# Correctness of the remaining operations
-/
namespace Verif.Ops
open Verif.Var

variable {s s' : Store} {U U' : List Nat} {u ext base : Nat → Nat} {ev : M Unit}

/-! ## Unary operations -/

/-- What a unary operation guarantees. -/
def Post1 (s : Store) (U : List Nat) (u : Nat → Nat) (k : Kind) (t : VType) (a0 : Nat) :
    Nat → Store → Prop :=
  Post s U u t (s.vars a0).size (s.constProp = true ∧ (s.vars a0).kind = .literal) (V1 s k t a0)

theorem int1_post (h : St s U u) {k : Kind} (hk : IsOp k) {f : VType → BitVec 64 → FoldRes}
    {a0 : Nat} (h0 : Operand s u a0) (ht : (s.vars a0).type.isInt = true)
    (hf : ∀ {t : VType} {x v z : BitVec 64}, t.isInt = true → f t x = .val v →
      sem1 k t t x = some z → norm t v = z) :
    wlp (unary ev k f a0) s (Post1 s U u k (s.vars a0).type a0) := by
  obtain ⟨n1, n2, _⟩ := isInt_ne ht
  exact unary_post h hk h0 n1 (fun _ v hv => ⟨fun e => absurd e n2, fun z hz => hf ht hv hz⟩)

theorem neg_post (h : St s U u) {a0 : Nat} (h0 : Operand s u a0)
    (ht : (s.vars a0).type.isInt = true) :
    wlp (varNeg ev a0) s (Post1 s U u .neg (s.vars a0).type a0) := int1_post h isOp h0 ht fold_neg
theorem popc_post (h : St s U u) {a0 : Nat} (h0 : Operand s u a0)
    (ht : (s.vars a0).type.isInt = true) :
    wlp (varPopc ev a0) s (Post1 s U u .popc (s.vars a0).type a0) := int1_post h isOp h0 ht fold_popc
theorem clz_post (h : St s U u) {a0 : Nat} (h0 : Operand s u a0)
    (ht : (s.vars a0).type.isInt = true) :
    wlp (varClz ev a0) s (Post1 s U u .clz (s.vars a0).type a0) := int1_post h isOp h0 ht fold_clz
theorem ctz_post (h : St s U u) {a0 : Nat} (h0 : Operand s u a0)
    (ht : (s.vars a0).type.isInt = true) :
    wlp (varCtz ev a0) s (Post1 s U u .ctz (s.vars a0).type a0) := int1_post h isOp h0 ht fold_ctz
theorem brev_post (h : St s U u) {a0 : Nat} (h0 : Operand s u a0)
    (ht : (s.vars a0).type.isInt = true) :
    wlp (varBrev ev a0) s (Post1 s U u .brev (s.vars a0).type a0) := int1_post h isOp h0 ht fold_brev

/-- Integers, Booleans, and floating point numbers. -/
def Scalar (t : VType) : Prop := t.isInt = true ∨ t.isFloat = true ∨ t = .bool

theorem Scalar.ne {t : VType} (h : Scalar t) : t ≠ .void := by
  rintro rfl; rcases h with h | h | h <;> cases h

theorem not_post (h : St s U u) {a0 : Nat} (h0 : Operand s u a0) (ht : Scalar (s.vars a0).type) :
    wlp (varNot ev a0) s (Post1 s U u .not (s.vars a0).type a0) := by
  refine unary_post h isOp h0 ht.ne ?_
  intro hl v hv
  obtain ⟨z0, hz0⟩ : ∃ z, sem1 .not (s.vars a0).type (s.vars a0).type (s.vars a0).literal = some z := by
    simp only [sem1]
    rw [if_pos ⟨trivial, ht⟩]; exact ⟨_, rfl⟩
  exact ⟨(fold_not (h0.lit hl) hv hz0).2, fun z hz => (fold_not (h0.lit hl) hv hz).1⟩

theorem abs_unsigned {t : VType} {x z : BitVec 64} (hu : t.isUint = true)
    (h : sem1 .abs t t x = some z) : z = norm t x := by
  have hs : t.isSint = false := by cases t <;> first | rfl | exact absurd hu (by decide)
  simp only [sem1] at h
  split at h
  · rw [hs] at h
    simp at h; exact h.symm
  · cases h

theorem abs_post (h : St s U u) {a0 : Nat} (h0 : Operand s u a0)
    (ht : (s.vars a0).type.isInt = true) :
    wlp (varAbs ev a0) s (Post1 s U u .abs (s.vars a0).type a0) := by
  obtain ⟨n1, n2, _⟩ := isInt_ne ht
  unfold varAbs
  refine wlp_bind (wlp_mono (check_post h (by simp) (by simpa using ⟨h0, n1⟩)) ?_)
  rintro info s' ⟨rfl, hi, hn⟩
  refine wlp_bind (wlp_getStore ?_)
  have et := hi.type _ _ rfl
  have es := info1 hi
  dsimp only
  by_cases hc : (info.simplify && info.literal) = true
  · rw [if_pos hc]
    refine wlp_bind ?_
    simp only [Bool.and_eq_true] at hc
    have hl := hi.literal.1 hc.2 a0 (by simp)
    refine wlp_mono (evalLiteral_post h hn (V := V1 s' .abs (s'.vars a0).type a0) ?_) ?_
    · intro v hv
      rw [et]
      refine ⟨fun e => absurd e n2, ?_⟩
      rintro l z ⟨x, hx, hz⟩
      rw [lit_val h0 hl hx] at hz
      exact fold_abs ht hv hz
    · intro r s1 p
      rw [et, es] at p
      rw [if_neg (fun e => p.ne e.1)]
      exact wlp_bind (wlp_pure (finish1_done p.ne (p.mono (fun _ => trivial) (fun _ _ => id))))
  · rw [if_neg hc]
    have nl : ¬ (s'.constProp = true ∧ (s'.vars a0).kind = .literal) := by
      rintro ⟨c1, c2⟩
      have l1 := hi.literal.2 (by simpa using c2)
      exact hc (by rw [l1, hi.simplify c1 l1]; rfl)
    refine wlp_bind (wlp_pure ?_)
    by_cases hu : info.type.isUint = true
    · rw [if_pos ⟨rfl, hu⟩]
      rw [et] at hu
      have := inc_post' h h0
      intro a s2 e
      rcases hm : incRef a0 s' with ⟨b, s1⟩ | s1 | _ | r
      · have e1 : (do incRef a0; pure a0) s' = .ok a0 s1 := by
          change (incRef a0 >>= fun _ => pure a0) s' = _
          simp only [bind, hm]; rfl
        have p := this a0 s1 e1
        simp only [bind, hm] at e
        have q : wlp (finish1 ev info .abs a0 a0) s1 (Post1 s' U u .abs (s'.vars a0).type a0) := by
          refine finish1_done (h.alive h0.held).1 (p.mono (fun e => nl.elim e) ?_)
          rintro l z ⟨x, hx, hz⟩
          rw [abs_unsigned hu hz, hx.norm]; exact hx
        exact q a s2 e
      all_goals simp only [bind, hm] at e; cases e
    · rw [if_neg (fun e => hu e.2)]
      refine wlp_bind (wlp_pure ?_)
      refine wlp_mono (finish1_post h isOp h0) ?_
      intro r s1 p
      have p := p (by omega)
      rw [et, es] at p
      exact p.mono (fun e => nl e) (fun _ _ => id)

/-! ## Comparisons -/

/-- Two operands of the same type. -/
structure Same (s : Store) (u : Nat → Nat) (a0 a1 : Nat) : Prop where
  h0 : Operand s u a0
  h1 : Operand s u a1
  scalar : Scalar (s.vars a0).type
  same : (s.vars a1).type = (s.vars a0).type

theorem cmp_post (h : St s U u) {k : Kind} (hk : IsOp k) {a0 a1 : Nat} (hi : Same s u a0 a1)
    {fi : Int → Int → Bool} {ff ff' : VType → BitVec 64 → BitVec 64 → Bool} {b : Bool}
    (hsem : ∀ t x y, sem2 k .bool t t x y = semCmp .bool t t fi (ff t) x y)
    (hff : ∀ t : VType, t = (s.vars a0).type → t.isFloat = true → ff' t = ff t)
    {simp : OpInfo → Var → Var → Store → Option (M Nat)}
    (hs : ∀ info : OpInfo, info.type = .bool → ∀ m, simp info (s.vars a0) (s.vars a1) s = some m →
      a0 = a1 ∧ (∀ n, fi n n = b) ∧
      ((s.vars a0).type.isFloat = true → ∀ x, ff (s.vars a0).type x x = b) ∧
      m = varLiteral info.backend .bool (ofBool b) info.size) :
    wlp (binary ev k (fun _ => .bool) (fun t => foldCmp t fi (ff' t)) simp a0 a1) s
      (Post2 s U u k .bool a0 a1) := by
  refine binary_post (rt := fun _ => .bool) h hk hi.h0 hi.h1 hi.scalar.ne
    (by rw [hi.same]; exact hi.scalar.ne) ?_ ?_
  · intro l0 l1 v hv
    have e1 : norm (s.vars a0).type (s.vars a1).literal = (s.vars a1).literal := by
      have := hi.h1.lit l1
      rwa [hi.same] at this
    obtain ⟨z0, hz0⟩ : ∃ z, semCmp .bool (s.vars a0).type (s.vars a0).type fi
        (ff (s.vars a0).type) (s.vars a0).literal (s.vars a1).literal = some z := by
      unfold semCmp
      rw [if_pos ⟨rfl, rfl⟩]
      rcases hi.scalar with e | e | e
      · rw [if_pos (.inl e)]; exact ⟨_, rfl⟩
      · by_cases hh : (s.vars a0).type.isInt = true ∨ (s.vars a0).type = .bool
        · rw [if_pos hh]; exact ⟨_, rfl⟩
        · rw [if_neg hh, if_pos e]; exact ⟨_, rfl⟩
      · rw [if_pos (.inr e)]; exact ⟨_, rfl⟩
    refine ⟨fun _ => (fold_cmp (hi.h0.lit l0) e1 (hff _ rfl) hv hz0).2, fun z hz => ?_⟩
    rw [hi.same, hsem] at hz
    exact (fold_cmp (hi.h0.lit l0) e1 (hff _ rfl) hv hz).1
  · intro info et es hn _ _ m hm
    obtain ⟨e, h1, h2, rfl⟩ := hs info et m hm
    rw [show info.type = .bool from et]
    refine lit_as h hn (fun _ => by rw [norm_ofBool]) ?_
    rintro l z ⟨x, y, hx, hy, hz⟩
    rw [← e] at hy hz
    rw [← hx.unique hy, hsem] at hz
    exact cmp_self h1 (fun hf => h2 hf x) hz

theorem eq_post (h : St s U u) {a0 a1 : Nat} (hi : Same s u a0 a1) :
    wlp (varEq ev a0 a1) s (Post2 s U u .eq .bool a0 a1) := by
  refine cmp_post (ff := fEq) (b := true) h isOp hi (fun _ _ _ => rfl) (fun _ _ _ => rfl) ?_
  intro info et m hm
  rcases opt_some hm with ⟨hc, rfl⟩ | ⟨_, hm⟩
  · exact ⟨hc.1, by simp, fun e => (by rw [hc.2] at e; cases e), rfl⟩
  cases hm

theorem neq_post (h : St s U u) {a0 a1 : Nat} (hi : Same s u a0 a1)
    (hnf : (s.vars a0).type.isFloat = false) :
    wlp (varNeq ev a0 a1) s (Post2 s U u .neq .bool a0 a1) := by
  refine cmp_post (ff := fun t x y => fLt t x y || fLt t y x) (b := false) h isOp hi
    (fun _ _ _ => rfl) (fun t e hf => by rw [e, hnf] at hf; cases hf) ?_
  intro info et m hm
  rcases opt_some hm with ⟨hc, rfl⟩ | ⟨_, hm⟩
  · refine ⟨hc, by simp, fun e => (by rw [hnf] at e; cases e), ?_⟩
    unfold makeZero; rw [et]; rfl
  cases hm

/-- `neq` of floating point numbers, in threads where no operand is a NaN. -/
theorem neqF_post (h : St s U u) {a0 a1 : Nat} (hi : Same s u a0 a1)
    (hf : (s.vars a0).type.isFloat = true) :
    wlp (varNeq ev a0 a1) s (Post s U u .bool (max (s.vars a0).size (s.vars a1).size)
      (s.constProp = true ∧ (s.vars a0).kind = .literal ∧ (s.vars a1).kind = .literal)
      (fun l z => ∃ x y, Val s a0 l x ∧ Val s a1 l y ∧ fNan (s.vars a0).type x = false ∧
        fNan (s.vars a0).type y = false ∧ z = ofBool (!fEq (s.vars a0).type x y))) := by
  have hnb : ¬ ((s.vars a0).type.isInt = true ∨ (s.vars a0).type = .bool) := by
    revert hf; cases (s.vars a0).type <;> decide
  have hni : ¬ (s.vars a0).type.isInt = true := fun e => hnb (.inl e)
  refine binaryV_post (rt := fun _ => .bool) h isOp hi.h0 hi.h1 hi.scalar.ne
    (by rw [hi.same]; exact hi.scalar.ne) ?_ ?_ ?_
  · rintro l z ⟨x, y, hx, hy, nx, ny, rfl⟩
    refine ⟨x, y, hx, hy, ?_⟩
    rw [hi.same]
    simp only [sem2, semCmp]
    rw [if_pos ⟨trivial, trivial⟩, if_neg hnb, if_pos hf]
    congr 2
    unfold fLt fEq
    rw [nx, ny, Bool.eq_iff_iff]
    simp
  · intro l0 l1 v hv
    unfold foldCmp at hv
    rw [if_neg hni, if_pos hf] at hv
    cases hv
    refine ⟨fun _ => norm_ofBool _, ?_⟩
    rintro l z ⟨x, y, hx, hy, nx, ny, rfl⟩
    rw [lit_val hi.h0 l0 hx, lit_val hi.h1 l1 hy, norm_ofBool]
  · intro info et es hn _ _ m hm
    rcases opt_some hm with ⟨hc, rfl⟩ | ⟨_, hm⟩
    · unfold makeZero
      rw [show info.type = .bool from et]
      refine lit_as h hn (fun _ => by decide) ?_
      rintro l z ⟨x, y, hx, hy, nx, ny, rfl⟩
      rw [← hc] at hy
      rw [← hx.unique hy, norm_zero]
      unfold fEq
      rw [nx]; simp [ofBool]
    cases hm

theorem lt_post (h : St s U u) {a0 a1 : Nat} (hi : Same s u a0 a1) :
    wlp (varLt ev a0 a1) s (Post2 s U u .lt .bool a0 a1) := by
  refine cmp_post (ff := fLt) (b := false) h isOp hi (fun _ _ _ => rfl) (fun _ _ _ => rfl) ?_
  intro info et m hm
  rcases opt_some hm with ⟨hc, rfl⟩ | ⟨_, hm⟩
  · refine ⟨hc, by simp, fun _ x => fLt_self, ?_⟩
    unfold makeZero; rw [et]; rfl
  cases hm

theorem le_post (h : St s U u) {a0 a1 : Nat} (hi : Same s u a0 a1) :
    wlp (varLe ev a0 a1) s (Post2 s U u .le .bool a0 a1) := by
  refine cmp_post (ff := fLe) (b := true) h isOp hi (fun _ _ _ => rfl) (fun _ _ _ => rfl) ?_
  intro info et m hm
  rcases opt_some hm with ⟨hc, rfl⟩ | ⟨_, hm⟩
  · exact ⟨hc.1, by simp, fun e => (by rw [hc.2] at e; cases e), rfl⟩
  cases hm

theorem gt_post (h : St s U u) {a0 a1 : Nat} (hi : Same s u a0 a1) :
    wlp (varGt ev a0 a1) s (Post2 s U u .gt .bool a0 a1) := by
  refine cmp_post (ff := fun t x y => fLt t y x) (b := false) h isOp hi
    (fun _ _ _ => rfl) (fun _ _ _ => rfl) ?_
  intro info et m hm
  rcases opt_some hm with ⟨hc, rfl⟩ | ⟨_, hm⟩
  · refine ⟨hc, by simp, fun _ x => fLt_self, ?_⟩
    unfold makeZero; rw [et]; rfl
  cases hm

theorem ge_post (h : St s U u) {a0 a1 : Nat} (hi : Same s u a0 a1) :
    wlp (varGe ev a0 a1) s (Post2 s U u .ge .bool a0 a1) := by
  refine cmp_post (ff := fun t x y => fLe t y x) (b := true) h isOp hi
    (fun _ _ _ => rfl) (fun _ _ _ => rfl) ?_
  intro info et m hm
  rcases opt_some hm with ⟨hc, rfl⟩ | ⟨_, hm⟩
  · exact ⟨hc.1, by simp, fun e => (by rw [hc.2] at e; cases e), rfl⟩
  cases hm

/-! ## Bitwise operations -/

theorem xor_post (h : St s U u) {a0 a1 : Nat} (hi : Same s u a0 a1) :
    wlp (varXor ev a0 a1) s (Post2 s U u .xor (s.vars a0).type a0 a1) := by
  refine binary_post (rt := id) h isOp hi.h0 hi.h1 hi.scalar.ne
    (by rw [hi.same]; exact hi.scalar.ne) ?_ ?_
  · intro l0 l1 v hv
    have e1 : norm (s.vars a0).type (s.vars a1).literal = (s.vars a1).literal := by
      have := hi.h1.lit l1
      rwa [hi.same] at this
    obtain ⟨z0, hz0⟩ : ∃ z, sem2 .xor (s.vars a0).type (s.vars a0).type (s.vars a0).type
        (s.vars a0).literal (s.vars a1).literal = some z := by
      simp only [sem2]
      rw [if_pos ⟨trivial, trivial, hi.scalar⟩]; exact ⟨_, rfl⟩
    refine ⟨(fold_xor (hi.h0.lit l0) e1 hv hz0).2, fun z hz => ?_⟩
    rw [hi.same] at hz
    exact (fold_xor (hi.h0.lit l0) e1 hv hz).1
  · intro info et es hn _ _ m hm
    rw [show info.type = (s.vars a0).type from et]
    rcases opt_some hm with ⟨hc, rfl⟩ | ⟨_, hm⟩
    · refine resize_as h hi.h0 hn (by omega) rfl ?_
      rintro l z ⟨x, y, hx, hy, hz⟩
      rw [zero_val hc hy, hi.same] at hz
      rw [xor_zero_right hz, hx.norm]; exact hx
    rcases opt_some hm with ⟨hc, rfl⟩ | ⟨_, hm⟩
    · refine resize_as h hi.h1 hn (by omega) hi.same ?_
      rintro l z ⟨x, y, hx, hy, hz⟩
      rw [zero_val hc hx, hi.same] at hz
      rw [xor_zero_left hz, ← hi.same, hy.norm]; exact hy
    rcases opt_some hm with ⟨hc, rfl⟩ | ⟨_, hm⟩
    · unfold makeZero
      rw [show info.type = (s.vars a0).type from et]
      refine lit_as h hn (fun _ => norm_zero _) ?_
      rintro l z ⟨x, y, hx, hy, hz⟩
      rw [← hc] at hy hz
      rw [hx.unique hy] at hz
      exact xor_self hz
    cases hm

/-- The operands of `and` and `or`: the second one may be a mask. -/
structure Masked (s : Store) (u : Nat → Nat) (a0 a1 : Nat) : Prop where
  h0 : Operand s u a0
  h1 : Operand s u a1
  scalar : Scalar (s.vars a0).type
  same : (s.vars a1).type = (s.vars a0).type ∨ (s.vars a1).type = .bool

theorem Masked.ne {a0 a1 : Nat} (h : Masked s u a0 a1) : (s.vars a1).type ≠ .void := by
  rcases h.same with e | e
  · rw [e]; exact h.scalar.ne
  · rw [e]; decide

/-- Common part of `varAnd` and `varOr`. -/
theorem mask_post (h : St s U u) {k : Kind} (hk : IsOp k) {a0 a1 : Nat} (hi : Masked s u a0 a1)
    {info : OpInfo} (ho : InfoOK s [a0, a1] info) (hn : 0 < info.size) {f : FoldRes} {m : M Nat}
    (hf : (s.vars a0).kind = .literal → (s.vars a1).kind = .literal →
      (s.vars a0).type = (s.vars a1).type → ∀ v, f = .val v →
      ((s.vars a0).type = .bool → norm .bool v = v) ∧
      ∀ z, sem2 k (s.vars a0).type (s.vars a0).type (s.vars a1).type (s.vars a0).literal
        (s.vars a1).literal = some z → norm (s.vars a0).type v = z)
    (hm : ¬ (info.literal = true ∧ (s.vars a0).type = (s.vars a1).type) →
      wlp m s (fun r s' => (r = 0 ∧ s' = s) ∨
      Post s U u (s.vars a0).type info.size False (V2 s k (s.vars a0).type a0 a1) r s')) :
    wlp (if info.simplify = true then
        if info.literal = true ∧ (s.vars a0).type = (s.vars a1).type then do
          let r ← evalLiteral info f
          finish2 ev info k a0 a1 r
        else do
          let r ← m
          finish2 ev info k a0 a1 r
      else do
        let r ← pure 0
        finish2 ev info k a0 a1 r) s
      (Post s U u (s.vars a0).type (max (s.vars a0).size (s.vars a1).size)
        (s.constProp = true ∧ (s.vars a0).kind = .literal ∧ (s.vars a1).kind = .literal ∧
          (s.vars a0).type = (s.vars a1).type) (V2 s k (s.vars a0).type a0 a1)) := by
  have et := ho.type _ _ rfl
  have es := info2 ho
  have fin : ¬ (info.simplify = true ∧ info.literal = true ∧
      (s.vars a0).type = (s.vars a1).type) → wlp (finish2 ev info k a0 a1 0) s
      (Post s U u (s.vars a0).type (max (s.vars a0).size (s.vars a1).size)
        (s.constProp = true ∧ (s.vars a0).kind = .literal ∧ (s.vars a1).kind = .literal ∧
          (s.vars a0).type = (s.vars a1).type) (V2 s k (s.vars a0).type a0 a1)) := by
    intro hc
    refine wlp_mono (finish2_post h hk hi.h0 hi.h1 hn) ?_
    intro r s1 p
    rw [et, es] at p
    refine p.mono ?_ (fun _ _ => id)
    rintro ⟨c1, c2, c3, c4⟩
    have l1 := ho.literal.2 (by simpa using ⟨c2, c3⟩)
    exact hc ⟨ho.simplify c1 l1, l1, c4⟩
  refine wlp_ite (fun hc => ?_) (fun hc => wlp_bind (wlp_pure (fin (fun e => hc e.1))))
  refine wlp_ite (fun hl => ?_) (fun hl => ?_)
  · have l0 := ho.literal.1 hl.1 a0 (by simp)
    have l1 := ho.literal.1 hl.1 a1 (by simp)
    refine wlp_bind (wlp_mono (evalLiteral_post h hn (V := V2 s k (s.vars a0).type a0 a1) ?_) ?_)
    · intro v hv
      obtain ⟨b1, b2⟩ := hf l0 l1 hl.2 v hv
      rw [et]
      refine ⟨b1, ?_⟩
      rintro l z ⟨x, y, hx, hy, hz⟩
      rw [lit_val hi.h0 l0 hx, lit_val hi.h1 l1 hy] at hz
      exact b2 z hz
    · intro r s1 p
      rw [et, es] at p
      exact finish2_done p.ne (p.mono (fun _ => trivial) (fun _ _ => id))
  · refine wlp_bind (wlp_mono (hm hl) ?_)
    rintro r s1 (⟨rfl, rfl⟩ | p)
    · exact fin (fun e => hl e.2)
    · rw [es] at p
      refine finish2_done p.ne (p.mono ?_ (fun _ _ => id))
      rintro ⟨c1, c2, c3, c4⟩
      exact hl ⟨ho.literal.2 (by simpa using ⟨c2, c3⟩), c4⟩

/-- Whether an `and`/`or` of literals is folded: only if the types agree. -/
def Post2' (s : Store) (U : List Nat) (u : Nat → Nat) (k : Kind) (t : VType) (a0 a1 : Nat) :
    Nat → Store → Prop :=
  Post s U u t (max (s.vars a0).size (s.vars a1).size)
    (s.constProp = true ∧ (s.vars a0).kind = .literal ∧ (s.vars a1).kind = .literal ∧
      (s.vars a0).type = (s.vars a1).type)
    (V2 s k t a0 a1)

theorem and_post (h : St s U u) {a0 a1 : Nat} (hi : Masked s u a0 a1) :
    wlp (varAnd ev a0 a1) s (Post2' s U u .and (s.vars a0).type a0 a1) := by
  unfold varAnd
  refine wlp_bind (wlp_mono (check_post h (by simp)
    (by simpa using ⟨⟨hi.h0, hi.scalar.ne⟩, hi.h1, hi.ne⟩)) ?_)
  rintro info s' ⟨rfl, ho, hn⟩
  refine wlp_bind (wlp_getStore ?_)
  dsimp only
  refine wlp_ite (fun _ => wlp_raise) (fun _ => ?_)
  have et := ho.type _ _ rfl
  have main := mask_post (ev := ev) (k := .and) h isOp hi ho hn
    (f := foldBits (s'.vars a0).type (· && ·) (· &&& ·) (s'.vars a0).literal (s'.vars a1).literal)
    (m := if (isZero (s'.vars a0) || isZero (s'.vars a1)) = true then makeZero info
        else if ((isOne (s'.vars a1) && (s'.vars a1).type == .bool) || a0 == a1) = true then
          varResize ev a0 info.size
        else if (isOne (s'.vars a0) && (s'.vars a0).type == .bool) = true then
          varResize ev a1 info.size
        else pure 0) ?_ ?_
  · refine Eq.mp ?_ main
    congr 1
    split
    · split
      · rfl
      · split
        · rfl
        · split
          · rfl
          · split <;> rfl
    · rfl
  · intro l0 l1 e v hv
    have e1 : norm (s'.vars a0).type (s'.vars a1).literal = (s'.vars a1).literal := by
      have := hi.h1.lit l1
      rwa [← e] at this
    obtain ⟨z0, hz0⟩ : ∃ z, sem2 .and (s'.vars a0).type (s'.vars a0).type (s'.vars a0).type
        (s'.vars a0).literal (s'.vars a1).literal = some z := by
      simp only [sem2]
      rw [if_pos trivial, if_pos ⟨trivial, trivial, hi.scalar⟩]; exact ⟨_, rfl⟩
    refine ⟨(fold_and (hi.h0.lit l0) e1 hv hz0).2, fun z hz => ?_⟩
    rw [← e] at hz
    exact (fold_and (hi.h0.lit l0) e1 hv hz).1
  · intro _
    refine wlp_ite (fun hc => ?_) (fun _ => ?_)
    · unfold makeZero
      rw [et]
      refine wlp_mono (lit_as h hn (fun _ => norm_zero _) ?_) (fun _ _ p => .inr p)
      rintro l z ⟨x, y, hx, hy, hz⟩
      simp only [Bool.or_eq_true] at hc
      rcases hc with hc | hc
      · rw [zero_val hc hx] at hz; exact and_zero_left hz
      · rw [zero_val hc hy] at hz; exact and_zero_right hz
    refine wlp_ite (fun hc => ?_) (fun _ => ?_)
    · refine wlp_mono (resize_as h hi.h0 hn (by have := info2 ho; omega) rfl ?_) (fun _ _ p => .inr p)
      rintro l z ⟨x, y, hx, hy, hz⟩
      simp only [Bool.or_eq_true, Bool.and_eq_true, beq_iff_eq] at hc
      rcases hc with ⟨hc, ht⟩ | hc
      · rw [one_val hi.h1 (.inr ht) hc hy, ht] at hz
        rw [and_true_right hx.norm hz]; exact hx
      · rw [← hc] at hy hz
        rw [← hx.unique hy] at hz
        rw [and_self hz, hx.norm]; exact hx
    refine wlp_ite (fun hc => ?_) (fun _ => wlp_pure (.inl ⟨rfl, rfl⟩))
    · simp only [Bool.and_eq_true, beq_iff_eq] at hc
      have t1 : (s'.vars a1).type = .bool := by
        rcases hi.same with e | e
        · rw [e, hc.2]
        · exact e
      refine wlp_mono (resize_as h hi.h1 hn (by have := info2 ho; omega) (by rw [t1, hc.2]) ?_) (fun _ _ p => .inr p)
      rintro l z ⟨x, y, hx, hy, hz⟩
      rw [one_val hi.h0 (.inr hc.2) hc.1 hx, t1, hc.2] at hz
      have := hy.norm
      rw [t1] at this
      rw [and_true_left this hz]; exact hy

theorem or_post (h : St s U u) {a0 a1 : Nat} (hi : Masked s u a0 a1) :
    wlp (varOr ev a0 a1) s (Post2' s U u .or (s.vars a0).type a0 a1) := by
  unfold varOr
  refine wlp_bind (wlp_mono (check_post h (by simp)
    (by simpa using ⟨⟨hi.h0, hi.scalar.ne⟩, hi.h1, hi.ne⟩)) ?_)
  rintro info s' ⟨rfl, ho, hn⟩
  refine wlp_bind (wlp_getStore ?_)
  dsimp only
  refine wlp_ite (fun _ => wlp_raise) (fun _ => ?_)
  have et := ho.type _ _ rfl
  have main := mask_post (ev := ev) (k := .or) h isOp hi ho hn
    (f := foldBits (s'.vars a0).type (· || ·) (· ||| ·) (s'.vars a0).literal (s'.vars a1).literal)
    (m := if (((s'.vars a0).type == .bool && isOne (s'.vars a1)) ||
          (isZero (s'.vars a0) && (s'.vars a0).type == (s'.vars a1).type) || a0 == a1) = true then
          varResize ev a1 info.size
        else if (((s'.vars a0).type == .bool && isOne (s'.vars a0)) || isZero (s'.vars a1)) = true
          then varResize ev a0 info.size
        else pure 0) ?_ ?_
  · refine Eq.mp ?_ main
    congr 1
    split
    · split
      · rfl
      · split
        · rfl
        · split <;> rfl
    · rfl
  · intro l0 l1 e v hv
    have e1 : norm (s'.vars a0).type (s'.vars a1).literal = (s'.vars a1).literal := by
      have := hi.h1.lit l1
      rwa [← e] at this
    obtain ⟨z0, hz0⟩ : ∃ z, sem2 .or (s'.vars a0).type (s'.vars a0).type (s'.vars a0).type
        (s'.vars a0).literal (s'.vars a1).literal = some z := by
      simp only [sem2]
      rw [if_pos trivial, if_pos ⟨trivial, trivial, hi.scalar⟩]; exact ⟨_, rfl⟩
    refine ⟨(fold_or (hi.h0.lit l0) e1 hv hz0).2, fun z hz => ?_⟩
    rw [← e] at hz
    exact (fold_or (hi.h0.lit l0) e1 hv hz).1
  · intro _
    have t1b : (s'.vars a0).type = .bool → (s'.vars a1).type = .bool := by
      intro hb
      rcases hi.same with e | e
      · rw [e, hb]
      · exact e
    refine wlp_ite (fun hc => ?_) (fun _ => ?_)
    · simp only [Bool.or_eq_true, Bool.and_eq_true, beq_iff_eq] at hc
      have tt : (s'.vars a1).type = (s'.vars a0).type := by
        rcases hc with (hc | hc) | hc
        · rw [t1b hc.1, hc.1]
        · exact hc.2.symm
        · rw [hc]
      refine wlp_mono (resize_as h hi.h1 hn (by have := info2 ho; omega) tt ?_) (fun _ _ p => .inr p)
      rintro l z ⟨x, y, hx, hy, hz⟩
      rw [tt] at hz
      rcases hc with (hc | hc) | hc
      · have e1 := one_val hi.h1 (.inr (t1b hc.1)) hc.2 hy
        have hxn := hx.norm
        rw [hc.1] at hz hxn
        rw [e1] at hz hy
        rw [or_true_right hz hxn]; exact hy
      · rw [zero_val hc.1 hx] at hz
        rw [or_zero_left hz, ← tt, hy.norm]; exact hy
      · rw [← hc] at hy
        rw [hx.unique hy] at hz
        rw [or_self hz, hy.norm, ← hc]; exact hy
    refine wlp_ite (fun hc => ?_) (fun _ => wlp_pure (.inl ⟨rfl, rfl⟩))
    · refine wlp_mono (resize_as h hi.h0 hn (by have := info2 ho; omega) rfl ?_) (fun _ _ p => .inr p)
      rintro l z ⟨x, y, hx, hy, hz⟩
      simp only [Bool.or_eq_true, Bool.and_eq_true, beq_iff_eq] at hc
      rcases hc with ⟨hc, h1⟩ | hc
      · have e1 := one_val hi.h0 (.inr hc) h1 hx
        have hyn := hy.norm
        rw [t1b hc] at hz hyn
        rw [hc] at hz
        rw [e1] at hz hx
        rw [or_true_left hz hyn]; exact hx
      · rw [zero_val hc hy] at hz
        rw [or_zero_right hz, hx.norm]; exact hx

/-! ## Remainder -/

theorem mod_post (h : St s U u) {a0 a1 : Nat} (hi : Ints s u a0 a1) :
    wlp (varMod ev a0 a1) s (Post2 s U u .mod (s.vars a0).type a0 a1) := by
  obtain ⟨n1, n2, _⟩ := isInt_ne hi.int
  have hi1 : (s.vars a1).type.isInt = true := by rw [hi.same]; exact hi.int
  unfold varMod
  refine wlp_bind (wlp_mono (check_post h (by simp)
    (by simpa using ⟨⟨hi.h0, n1⟩, hi.h1, by rw [hi.same]; exact n1⟩)) ?_)
  rintro info s' ⟨rfl, ho, hn⟩
  refine wlp_bind (wlp_getStore ?_)
  dsimp only
  have et := ho.type _ _ rfl
  have es := info2 ho
  refine wlp_ite (fun hc => ?_) (fun hc => ?_)
  · simp only [Bool.and_eq_true] at hc
    have l0 := ho.literal.1 hc.2 a0 (by simp)
    have l1 := ho.literal.1 hc.2 a1 (by simp)
    refine wlp_bind (wlp_mono (evalLiteral_post h hn (V := V2 s' .mod (s'.vars a0).type a0 a1) ?_) ?_)
    · intro v hv
      rw [et]
      refine ⟨fun e => absurd e n2, ?_⟩
      rintro l z ⟨x, y, hx, hy, hz⟩
      rw [lit_val hi.h0 l0 hx, lit_val hi.h1 l1 hy, hi.same] at hz
      exact fold_mod hi.int hv hz
    · intro r s1 p
      rw [et, es] at p
      exact finish2_done p.ne (p.mono (fun _ => trivial) (fun _ _ => id))
  have nl : ¬ (s'.constProp = true ∧ (s'.vars a0).kind = .literal ∧
      (s'.vars a1).kind = .literal) := by
    rintro ⟨c1, c2, c3⟩
    have l1 := ho.literal.2 (by simpa using ⟨c2, c3⟩)
    exact hc (by rw [l1, ho.simplify c1 l1]; rfl)
  unfold Post2
  rw [← es]
  refine wlp_ite (fun _ => wlp_stop) (fun _ => ?_)
  refine wlp_ite (fun hp => ?_) (fun _ => ?_)
  · simp only [Var.isLiteral, Bool.and_eq_true, beq_iff_eq] at hp
    rw [et]
    refine wlp_mono (tmp_post (k := .and) (op := fun c => varAnd ev a0 c) h hn hi.h0 rfl
      (fun e => absurd e n2) (by omega) ?_ (V := V2 s' .mod (s'.vars a0).type a0 a1) ?_)
      (fun r s1 p => p.mono (fun e => nl e) (fun _ _ => id))
    · intro s1 U1 u1 c h1 o1 o2 t1 t2
      have := and_post (ev := ev) h1 (a0 := a0) (a1 := c)
        ⟨o1, o2, .inl (by rw [t1]; exact hi.int), .inl (by rw [t1, t2])⟩
      rw [t1] at this
      refine wlp_mono this (fun r s2 p => p.mono (fun e => ⟨e.1, e.2.1, e.2.2, by rw [t1, t2]⟩)
        (fun _ _ => id))
    · rintro l z ⟨x, y, hx, hy, hz⟩
      refine ⟨x, hx, ?_⟩
      obtain ⟨k, _, e2, e3⟩ := pow2_spec (t := (s'.vars a0).type) hp.2
        (by have := hi.h1.lit hp.1.2; rwa [hi.same] at this)
      rw [lit_val hi.h1 hp.1.2 hy, hi.same] at hz
      exact mod_pow2 (by rw [← et]; exact hp.1.1) e2 e3 hz
  refine wlp_ite (fun hp => ?_) (fun _ => ?_)
  · simp only [Bool.and_eq_true] at hp
    rw [et]
    refine wlp_bind (wlp_mono (lit_as h hn (fun e => absurd e n2)
      (V := V2 s' .mod (s'.vars a0).type a0 a1) ?_) ?_)
    · rintro l z ⟨x, y, hx, hy, hz⟩
      rw [one_val hi.h1 (.inl hi1) hp.2 hy, hi.same] at hz
      exact mod_one hz
    · intro r s1 p
      exact finish2_done p.ne (p.mono (fun e => nl e) (fun _ _ => id))
  · refine wlp_mono (finish2_post h isOp hi.h0 hi.h1 hn) ?_
    intro r s1 p
    rw [et] at p
    exact p.mono (fun e => nl e) (fun _ _ => id)

/-! ## Select -/

theorem select_post (h : St s U u) {a0 a1 a2 : Nat} (h0 : Operand s u a0) (h1 : Operand s u a1)
    (h2 : Operand s u a2) (t0 : (s.vars a0).type = .bool) (t1 : (s.vars a1).type ≠ .void)
    (t2 : (s.vars a2).type = (s.vars a1).type) :
    wlp (varSelect ev a0 a1 a2) s (Post s U u (s.vars a1).type
      (max (max (s.vars a0).size (s.vars a1).size) (s.vars a2).size)
      (s.constProp = true ∧ (s.vars a0).kind = .literal ∧ (s.vars a1).kind = .literal ∧
        (s.vars a2).kind = .literal) (V3 s .select (s.vars a1).type a0 a1 a2)) := by
  unfold varSelect
  refine wlp_bind (wlp_mono (check_post h (by simp)
    (by simpa using ⟨⟨h0, by rw [t0]; decide⟩, ⟨h1, t1⟩, h2, by rw [t2]; exact t1⟩)) ?_)
  rintro info s' ⟨rfl, ho, hn⟩
  refine wlp_bind (wlp_getStore ?_)
  dsimp only
  have es := info3 ho
  rw [← es]
  have fact : ∀ {l : Nat} {z : BitVec 64}, V3 s' .select (s'.vars a1).type a0 a1 a2 l z →
      ∃ x y w, Val s' a0 l x ∧ Val s' a1 l y ∧ Val s' a2 l w ∧
        z = if x.getLsbD 0 then y else w := by
    rintro l z ⟨x, y, w, hx, hy, hw, hz⟩
    refine ⟨x, y, w, hx, hy, hw, ?_⟩
    simp only [sem3] at hz
    obtain ⟨_, e⟩ := ite_some hz
    rw [← e, hy.norm]
    have := hw.norm
    rw [t2] at this
    rw [this]
  refine wlp_ite (fun _ => wlp_raise) (fun _ => ?_)
  refine wlp_ite (fun _ => wlp_stop) (fun _ => ?_)
  refine wlp_ite (fun hc => ?_) (fun hc => ?_)
  · refine wlp_mono (resize_post h h1 hn (by omega)) (fun r s1 p => p.mono (fun e => e.2.2.1) ?_)
    intro l z hz
    obtain ⟨x, y, w, hx, hy, hw, rfl⟩ := fact hz
    rcases hc.2 with hc | hc
    · rw [one_val h0 (.inr t0) hc hx]; exact hy
    · rw [← hc] at hw
      rw [← hy.unique hw, ite_self]; exact hy
  refine wlp_ite (fun hc => ?_) (fun hc' => ?_)
  · rw [← t2]
    refine wlp_mono (resize_post h h2 hn (by omega)) (fun r s1 p => p.mono (fun e => e.2.2.2) ?_)
    intro l z hz
    rw [t2] at hz
    obtain ⟨x, y, w, hx, hy, hw, rfl⟩ := fact hz
    rw [zero_val hc.2 hx]; exact hw
  refine wlp_ite (fun _ => wlp_stop) (fun _ => ?_)
  refine wlp_mono (finish3_post h isOp h0 h1 h2 hn) (fun r s1 p => p.mono ?_ (fun _ _ => id))
  rintro ⟨c1, c2, c3, c4⟩
  have l1 := ho.literal.2 (by simpa using ⟨c2, c3, c4⟩)
  have hs := ho.simplify c1 l1
  have e := h0.lit c2
  rw [t0] at e
  rcases norm_bool e with e | e
  · exact hc' ⟨hs, by simp [isZero, Var.isLiteral, c2, e]⟩
  · exact hc ⟨.inl hs, .inl (by simp [isOne, Var.isLiteral, c2, e, t0, oneBits])⟩

/-! ## Casts -/

/-- Types accepted by `varCast`. -/
def CastOK (src target : VType) (reinterpret : Bool) : Prop :=
  (reinterpret = true ∧ src.bits = target.bits) ∨
  (reinterpret = false ∧ (src.isInt = true ∨ src = .bool) ∧ (target.isInt = true ∨ target = .bool))

theorem int_bytes {t : VType} (h : t.isInt = true) : t.bits = 8 * t.bytes ∧ 0 < t.bytes := by
  revert h; cases t <;> decide

theorem bits_one {t : VType} (h : t.bits = 1) : t = .bool := by
  revert h; cases t <;> decide

/-- A cast between integers of the same size only changes the type. -/
theorem cast_same {t t' : VType} {x z : BitVec 64} (hb : t.bits = t'.bits) (ht : t.isInt = true)
    (ht' : t'.isInt = true) (h : sem1 .cast t' t x = some z) : sem1 .bitcast t' t x = some z := by
  obtain ⟨_, n2, _⟩ := isInt_ne ht
  obtain ⟨_, n2', _⟩ := isInt_ne ht'
  simp only [sem1] at h ⊢
  rw [if_neg (fun e => n2' e.1), if_neg (fun e => n2 e.1), if_pos ⟨ht', ht⟩] at h
  rw [if_pos hb.symm, ← h]
  congr 1
  rw [← hb]
  split
  · rw [BitVec.signExtend_eq]
  · rw [BitVec.setWidth_eq]

theorem cast_self {t : VType} {x z : BitVec 64} (h : sem1 .cast t t x = some z) :
    z = norm t x := by
  by_cases ht : t.isInt = true
  · have := cast_same rfl ht ht h
    simp only [sem1] at this
    rw [if_pos trivial] at this
    cases this; rfl
  · simp only [sem1] at h
    rw [if_neg (fun e => ht e.2), if_neg (fun e => ht e.2), if_neg (fun e => ht e.2)] at h
    cases h

theorem bitcast_val {t t' : VType} {x z : BitVec 64} (h : sem1 .bitcast t' t x = some z) :
    t'.bits = t.bits ∧ z = norm t x := by
  simp only [sem1] at h
  obtain ⟨a, b⟩ := ite_some h
  exact ⟨a, b.symm⟩

theorem norm_bits {t t' : VType} (h : t.bits = t'.bits) (x : BitVec 64) : norm t x = norm t' x := by
  unfold norm; rw [h]

theorem cast_post (h : St s U u) {a0 : Nat} {target : VType} {re : Bool} (h0 : Operand s u a0)
    (hv : (s.vars a0).type ≠ .void) (hc : CastOK (s.vars a0).type target re) :
    wlp (varCast ev a0 target re) s (Post1 s U u (if re then .bitcast else .cast) target a0) := by
  unfold varCast
  rw [if_neg (h.alive h0.held).1]
  refine wlp_bind (wlp_mono (check_post h (by simp) (by simpa using ⟨h0, hv⟩)) ?_)
  rintro info s' ⟨rfl, ho, hn⟩
  refine wlp_bind (wlp_getStore ?_)
  dsimp only
  have es := info1 ho
  refine wlp_ite (fun _ => wlp_raise) (fun hr => ?_)
  generalize hssz : (if (s'.vars a0).type = .bool then 0 else (s'.vars a0).type.bytes) = ssz at hr ⊢
  generalize htsz : (if target = .bool then 0 else target.bytes) = tsz at hr ⊢
  have notlit : ¬ (info.simplify && info.literal) = true → ¬ (s'.constProp = true ∧
      (s'.vars a0).kind = .literal) := by
    rintro hc ⟨c1, c2⟩
    have l1 := ho.literal.2 (by simpa using c2)
    exact hc (by rw [l1, ho.simplify c1 l1]; rfl)
  refine wlp_ite (fun hsame => ?_) (fun hdiff => ?_)
  · -- same type
    refine wlp_bind (wlp_mono (inc_post' h h0) ?_)
    intro r s1 p
    rw [if_neg (fun e => p.ne e.1)]
    rw [hsame] at p
    refine finish1_done p.ne (p.mono (fun e => e.2) ?_)
    rintro l z ⟨x, hx, hz⟩
    rw [hsame] at hz
    have : z = norm target x := by
      cases re with
      | true => exact (bitcast_val hz).2
      | false => exact cast_self hz
    rw [this, ← hsame, hx.norm]; exact hx
  -- `re'` is whether the bits are kept
  generalize hre : (re || ssz == tsz && !(s'.vars a0).type.isFloat && !target.isFloat) = re'
  have key : if re' = true then (s'.vars a0).type.bits = target.bits ∧
      (∀ x z, sem1 (if re = true then .bitcast else .cast) target (s'.vars a0).type x = some z →
        sem1 .bitcast target (s'.vars a0).type x = some z)
      else re = false ∧ ((s'.vars a0).type.isInt = true ∨ (s'.vars a0).type = .bool) ∧
        (target.isInt = true ∨ target = .bool) := by
    rcases hc with ⟨rfl, hb⟩ | ⟨rfl, hb1, hb2⟩
    · have : re' = true := by rw [← hre]; rfl
      rw [if_pos this]
      exact ⟨hb, fun x z hz => hz⟩
    · cases hre' : re' with
      | false => rw [if_neg (by decide)]; exact ⟨rfl, hb1, hb2⟩
      | true =>
        rw [if_pos rfl]
        rw [hre', Bool.false_or] at hre
        simp only [Bool.and_eq_true, beq_iff_eq] at hre
        have hsz := hre.1.1
        have hi1 : (s'.vars a0).type.isInt = true ∧ target.isInt = true := by
          rw [← hssz, ← htsz] at hsz
          rcases hb1 with hb1 | hb1
          · rw [if_neg (isInt_ne hb1).2.1] at hsz
            rcases hb2 with hb2 | hb2
            · exact ⟨hb1, hb2⟩
            · rw [if_pos hb2] at hsz
              have := (int_bytes hb1).2
              omega
          · rw [if_pos hb1] at hsz
            rcases hb2 with hb2 | hb2
            · rw [if_neg (isInt_ne hb2).2.1] at hsz
              have := (int_bytes hb2).2
              omega
            · exact absurd (hb1.trans hb2.symm) hdiff
        have hbits : (s'.vars a0).type.bits = target.bits := by
          rw [← hssz, ← htsz, if_neg (isInt_ne hi1.1).2.1, if_neg (isInt_ne hi1.2).2.1] at hsz
          rw [(int_bytes hi1.1).1, (int_bytes hi1.2).1, hsz]
        exact ⟨hbits, fun x z hz => cast_same hbits hi1.1 hi1.2 hz⟩
  refine wlp_ite (fun hl => ?_) (fun hl => ?_)
  · have hl' := hl
    simp only [Bool.and_eq_true] at hl'
    have l0 := ho.literal.1 hl'.2 a0 (by simp)
    refine wlp_ite (fun hr' => ?_) (fun hr' => ?_)
    · rw [if_pos hr'] at key
      refine wlp_bind (wlp_mono (literal_post h hn ?_) ?_)
      · intro ht
        rw [ht] at key
        have hb : (s'.vars a0).type = .bool := bits_one key.1
        exact absurd (hb.trans ht.symm) hdiff
      · rintro r s1 ⟨p, _⟩
        rw [es] at p
        rw [if_neg (fun e => p.ne e.1)]
        refine finish1_done p.ne (p.mono (fun _ => trivial) ?_)
        rintro l z ⟨x, hx, hz⟩
        rw [(bitcast_val (key.2 _ _ hz)).2, lit_val h0 l0 hx]
        exact norm_bits key.1 _
    · rw [if_neg hr'] at key
      obtain ⟨k1, k2, k3⟩ := key
      subst k1
      refine wlp_bind (wlp_mono (evalLiteral_post h (info := { info with type := target }) hn
        (V := V1 s' .cast target a0) ?_) ?_)
      · intro v hv
        obtain ⟨z0, hz0⟩ : ∃ z, sem1 .cast target (s'.vars a0).type (s'.vars a0).literal = some z := by
          simp only [sem1]
          rcases k2 with k2 | k2 <;> rcases k3 with k3 | k3
          · rw [if_neg (fun e => (isInt_ne k3).2.1 e.1), if_neg (fun e => (isInt_ne k2).2.1 e.1),
              if_pos ⟨k3, k2⟩]
            exact ⟨_, rfl⟩
          · rw [if_pos ⟨k3, k2⟩]; exact ⟨_, rfl⟩
          · rw [if_neg (fun e => (isInt_ne k3).2.1 e.1), if_pos ⟨k2, k3⟩]; exact ⟨_, rfl⟩
          · exact absurd (k2.trans k3.symm) hdiff
        refine ⟨(fold_cast (h0.lit l0) k2 k3 hv hz0).2, ?_⟩
        rintro l z ⟨x, hx, hz⟩
        rw [lit_val h0 l0 hx] at hz
        exact (fold_cast (h0.lit l0) k2 k3 hv hz).1
      · intro r s1 p
        dsimp only at p
        rw [es] at p
        rw [if_neg (fun e => p.ne e.1)]
        exact finish1_done p.ne (p.mono (fun _ => trivial) (fun _ _ => id))
  · have nl := notlit hl
    refine wlp_bind (wlp_pure ?_)
    refine wlp_ite (fun _ => wlp_stop) (fun _ => ?_)
    refine wlp_mono (finish1_post h (by split <;> exact isOp) h0) ?_
    intro r s1 p
    have p := p (by dsimp only; omega)
    dsimp only at p
    rw [es] at p
    refine p.mono (fun e => nl e) ?_
    rintro l z ⟨x, hx, hz⟩
    refine ⟨x, hx, ?_⟩
    by_cases hr' : re' = true
    · rw [if_pos hr'] at key
      rw [if_pos hr']
      exact key.2 _ _ hz
    · rw [if_neg hr'] at key
      rw [if_neg hr']
      rw [key.1] at hz
      exact hz

/-- Casts of literals in `varMulWide`. -/
theorem castWide_post (h : St s U u) {a0 : Nat} {target : VType} (h0 : Operand s u a0)
    (hl : (s.vars a0).kind = .literal) (hcp : s.constProp = true)
    (hw : wideType (s.vars a0).type = some target) :
    wlp (varCast ev a0 target false) s (fun r s' =>
      Post s U u target (s.vars a0).size True (V1 s .cast target a0) r s' ∧ Keep s U s') := by
  have hw' : ((s.vars a0).type = .u32 ∧ target = .u64) ∨ ((s.vars a0).type = .i32 ∧ target = .i64) := by
    revert hw; cases (s.vars a0).type <;> simp [wideType] <;> intro h <;> exact h.symm
  have hi0 : (s.vars a0).type.isInt = true := by rcases hw' with ⟨e, _⟩ | ⟨e, _⟩ <;> rw [e] <;> rfl
  have hi1 : target.isInt = true := by rcases hw' with ⟨_, e⟩ | ⟨_, e⟩ <;> rw [e] <;> rfl
  unfold varCast
  rw [if_neg (h.alive h0.held).1]
  refine wlp_bind (wlp_mono (check_post h (by simp) (by simpa using ⟨h0, (isInt_ne hi0).1⟩)) ?_)
  rintro info s' ⟨rfl, ho, hn⟩
  refine wlp_bind (wlp_getStore ?_)
  dsimp only
  have es := info1 ho
  have l1 := ho.literal.2 (by simpa using hl)
  have l2 := ho.simplify hcp l1
  refine wlp_ite (fun _ => wlp_raise) (fun _ => ?_)
  rw [if_neg (by rcases hw' with ⟨e, e'⟩ | ⟨e, e'⟩ <;> rw [e, e'] <;> decide)]
  rw [if_pos (by rw [l1, l2]; rfl)]
  have hre : ¬ (false || (if (s'.vars a0).type = .bool then 0 else (s'.vars a0).type.bytes) ==
      (if target = .bool then 0 else target.bytes) && !(s'.vars a0).type.isFloat &&
      !target.isFloat) = true := by
    rcases hw' with ⟨e, e'⟩ | ⟨e, e'⟩ <;> rw [e, e'] <;> decide
  rw [if_neg hre]
  refine wlp_bind ?_
  cases hv : evalCast (s'.vars a0).type target (s'.vars a0).literal with
  | val v =>
    refine wlp_mono (literal_post h hn (fun e => absurd e (isInt_ne hi1).2.1)) ?_
    rintro r s1 ⟨p, _, _, hk⟩
    dsimp only at p
    rw [es] at p
    rw [if_neg (fun e => p.ne e.1)]
    refine finish1_done p.ne ⟨p.mono (fun _ => trivial) ?_, hk⟩
    rintro l z ⟨x, hx, hz⟩
    rw [lit_val h0 hl hx] at hz
    exact (fold_cast (h0.lit hl) (.inl hi0) (.inl hi1) hv hz).1.symm
  | ub => exact wlp_stop
  | fail => exact wlp_abort
  | unmodelled => exact wlp_stop

theorem mulWide_post (h : St s U u) {a0 a1 : Nat} (hi : Ints s u a0 a1) {t : VType}
    (hw : wideType (s.vars a0).type = some t) :
    wlp (varMulWide ev a0 a1) s (Post2 s U u .mulWide t a0 a1) := by
  obtain ⟨n1, n2, _⟩ := isInt_ne hi.int
  have hti : t.isInt = true := by
    revert hw; cases (s.vars a0).type <;> simp [wideType] <;> rintro rfl <;> rfl
  unfold varMulWide
  refine wlp_bind (wlp_mono (check_post h (by simp)
    (by simpa using ⟨⟨hi.h0, n1⟩, hi.h1, by rw [hi.same]; exact n1⟩)) ?_)
  rintro info s' ⟨rfl, ho, hn⟩
  refine wlp_bind (wlp_getStore ?_)
  have et := ho.type _ _ rfl
  have es := info2 ho
  rw [et, hw]
  dsimp only
  refine wlp_ite (fun hc => ?_) (fun hc => ?_)
  · simp only [Bool.and_eq_true] at hc
    have hcp := ho.enabled hc.1
    have l0 := ho.literal.1 hc.2 a0 (by simp)
    have l1 := ho.literal.1 hc.2 a1 (by simp)
    refine wlp_bind (wlp_mono (castWide_post h hi.h0 l0 hcp hw) ?_)
    rintro c0 s1 ⟨p0, k0⟩
    have o0 := p0.operand hi.h0.sized
    obtain ⟨U1, b1, b2, b3, b4, b5, b6, b7, b8, b9, b10⟩ := p0
    have al1 := h.alive hi.h1.held
    obtain ⟨_, bd1⟩ := frame_body h.inv b2 hi.h1.held al1
    obtain ⟨f1, f2, _⟩ := body_fields bd1
    have o1 : Operand s1 (plus u [c0]) a1 := hi.h1.keep h b2 k0 (plus_pos_left hi.h1.held)
    have w1 : wideType (s1.vars a1).type = some t := by rw [f2, hi.same]; exact hw
    refine wlp_bind (wlp_mono (castWide_post b1 o1 (by rw [f1]; exact l1)
      (by rw [Frame.constProp b2]; exact hcp) w1) ?_)
    rintro c1 s2 ⟨p1, k1⟩
    have o2 := p1.operand o1.sized
    obtain ⟨U2, d1, d2, d3, d4, d5, d6, d7, d8, d9, d10⟩ := p1
    have hc0 : 0 < plus u [c0] c0 := by rw [plus_self b3.1]; omega
    obtain ⟨g1, g2, _, g4⟩ := held_keep b1.inv d1.inv d2 hc0 b3
    have o0' : Operand s2 (plus (plus u [c0]) [c1]) c0 := o0.keep b1 d2 k1 (plus_pos_left hc0)
    have tc0 : (s2.vars c0).type = t := by rw [(body_fields g2).2.1, b4]
    refine wlp_bind (wlp_mono (mul_post (ev := ev) d1 (a0 := c0) (a1 := c1)
      ⟨o0', o2, by rw [tc0]; exact hti, by rw [tc0, d4]⟩) ?_)
    intro r s3 p3
    unfold Post2 at p3
    have sz : max (s2.vars c0).size (s2.vars c1).size = max (s'.vars a0).size (s'.vars a1).size := by
      rw [(k1 c0 b3).1, b5, d5, (k0 a1 al1).1]
    rw [tc0, sz] at p3
    have hlit : s2.constProp = true ∧ (s2.vars c0).kind = .literal ∧ (s2.vars c1).kind = .literal :=
      ⟨by rw [Frame.constProp d2, Frame.constProp b2]; exact hcp,
       by rw [(body_fields g2).1]; exact b8 trivial, d8 trivial⟩
    have p4 : Post s2 U2 (plus (plus u [c0]) [c1]) t (max (s'.vars a0).size (s'.vars a1).size)
        True (V2 s' .mulWide t a0 a1) r s3 := by
      refine p3.mono (fun _ => hlit) ?_
      rintro l z ⟨x, y, hx, hy, hz⟩
      rw [hi.same] at hz
      obtain ⟨x', y', e1, e2, e3⟩ := mulWide_cast hz
      obtain ⟨_, _, _, m4⟩ := held_keep h.inv b1.inv b2 hi.h1.held al1
      refine ⟨x', y', g4 l x' (b9 l x' ⟨x, hx, e1⟩), d9 l y' ⟨y, m4 l y hy, ?_⟩, ?_⟩
      · rw [f2, hi.same]; exact e2
      · rw [tc0, d4]; exact e3
    refine wlp_bind (wlp_mono (p4.release (fun P hP _ => by
      rw [d5, ← (k1 a1 (b1.alive (plus_pos_left hi.h1.held))).1]
      exact hP.2 a1 (plus_pos_left hi.h1.held))) ?_)
    intro _ s4 p5
    refine wlp_bind (wlp_mono (p5.release (fun P hP _ => by
      rw [(k1 c0 b3).1, b5, ← (k0 a0 (h.alive hi.h0.held)).1,
        ← (k1 a0 (b1.alive (plus_pos_left hi.h0.held))).1]
      exact hP.2 a0 hi.h0.held)) ?_)
    intro _ s5 p6
    refine wlp_pure ?_
    exact (p6.before (b2.trans (d2.mono (fun i hi => plus_pos_left hi)))
      ((k0.held h).trans (.same fun k hk => k1 k (b1.alive (plus_pos_left hk))))).mono (fun _ => trivial)
      (fun _ _ => id)
  · have nl : ¬ (s'.constProp = true ∧ (s'.vars a0).kind = .literal ∧
        (s'.vars a1).kind = .literal) := by
      rintro ⟨c1, c2, c3⟩
      have l1 := ho.literal.2 (by simpa using ⟨c2, c3⟩)
      exact hc (by rw [l1, ho.simplify c1 l1]; rfl)
    unfold Post2
    rw [← es]
    refine wlp_ite (fun hz => ?_) (fun _ => ?_)
    · simp only [Bool.and_eq_true, Bool.or_eq_true] at hz
      refine wlp_bind (wlp_mono (lit_as (t := t) (n := info.size) h hn
        (fun e => absurd e (isInt_ne hti).2.1) (V := V2 s' .mulWide t a0 a1) ?_) ?_)
      · rintro l z ⟨x, y, hx, hy, hs⟩
        rw [norm_zero]
        rw [hi.same] at hs
        rcases hz.2 with hc | hc
        · rw [zero_val hc hx] at hs; exact mulWide_zero_left hs
        · rw [zero_val hc hy] at hs; exact mulWide_zero_right hs
      · intro r s1 p
        exact finish2_done p.ne (p.mono (fun e => nl e) (fun _ _ => id))
    · refine wlp_bind (wlp_pure ?_)
      refine wlp_mono (finish2_post h isOp hi.h0 hi.h1 hn) ?_
      intro r s1 p
      exact p.mono (fun e => nl e) (fun _ _ => id)

/-! ## Fused multiply-add -/

theorem max_in {P : Nat → Prop} {a b : Nat} (ha : P a) (hb : P b) : P (max a b) := by
  rcases Nat.le_total a b with h | h
  · rwa [Nat.max_eq_right h]
  · rwa [Nat.max_eq_left h]

theorem fma_post (h : St s U u) {a0 a1 a2 : Nat} (hi : Ints s u a0 a1) (h2 : Operand s u a2)
    (t2 : (s.vars a2).type = (s.vars a0).type) :
    wlp (varFma ev a0 a1 a2) s (Post s U u (s.vars a0).type
      (max (max (s.vars a0).size (s.vars a1).size) (s.vars a2).size)
      (s.constProp = true ∧ (s.vars a0).kind = .literal ∧ (s.vars a1).kind = .literal ∧
        (s.vars a2).kind = .literal) (V3 s .fma (s.vars a0).type a0 a1 a2)) := by
  obtain ⟨n1, n2, _⟩ := isInt_ne hi.int
  have hi1 : (s.vars a1).type.isInt = true := by rw [hi.same]; exact hi.int
  have hi2 : (s.vars a2).type.isInt = true := by rw [t2]; exact hi.int
  unfold varFma
  refine wlp_bind (wlp_mono (check_post h (by simp)
    (by simpa using ⟨⟨hi.h0, n1⟩, ⟨hi.h1, by rw [hi.same]; exact n1⟩, h2,
      by rw [t2]; exact n1⟩)) ?_)
  rintro info s' ⟨rfl, ho, hn⟩
  refine wlp_bind (wlp_getStore ?_)
  dsimp only
  have et := ho.type _ _ rfl
  have es := info3 ho
  rw [← es]
  have notlit : ¬ (info.simplify = true ∧ info.literal = true) → ¬ (s'.constProp = true ∧
      (s'.vars a0).kind = .literal ∧ (s'.vars a1).kind = .literal ∧
      (s'.vars a2).kind = .literal) := by
    rintro hc ⟨c1, c2, c3, c4⟩
    have l1 := ho.literal.2 (by simpa using ⟨c2, c3, c4⟩)
    exact hc ⟨ho.simplify c1 l1, l1⟩
  have fin : ¬ (info.simplify = true ∧ info.literal = true) →
      wlp (finish3 ev info .fma a0 a1 a2 0) s' (Post s' U u (s'.vars a0).type info.size
      (s'.constProp = true ∧ (s'.vars a0).kind = .literal ∧ (s'.vars a1).kind = .literal ∧
        (s'.vars a2).kind = .literal) (V3 s' .fma (s'.vars a0).type a0 a1 a2)) := by
    intro hc
    refine wlp_mono (finish3_post h isOp hi.h0 hi.h1 h2 hn) ?_
    intro r s1 p
    rw [et] at p
    exact p.mono (fun e => notlit hc e) (fun _ _ => id)
  refine wlp_ite (fun hs => ?_) (fun hs => wlp_bind (wlp_pure (fin (fun e => hs e.1))))
  refine wlp_ite (fun hl => ?_) (fun hl => ?_)
  · have l0 := ho.literal.1 hl a0 (by simp)
    have l1 := ho.literal.1 hl a1 (by simp)
    have l2 := ho.literal.1 hl a2 (by simp)
    refine wlp_bind (wlp_mono (evalLiteral_post h hn
      (V := V3 s' .fma (s'.vars a0).type a0 a1 a2) ?_) ?_)
    · intro v hv
      rw [et]
      refine ⟨fun e => absurd e n2, ?_⟩
      rintro l z ⟨x, y, w, hx, hy, hw, hz⟩
      rw [lit_val hi.h0 l0 hx, lit_val hi.h1 l1 hy, lit_val h2 l2 hw, hi.same, t2] at hz
      exact fold_fma hi.int hv hz
    · intro r s1 p
      rw [et] at p
      exact finish3_done p.ne (p.mono (fun _ => trivial) (fun _ _ => id))
  have nl := notlit (fun e => hl e.2)
  -- the replacement expression
  have hsimp : wlp (fmaSimplify ev (s'.vars a0) (s'.vars a1) (s'.vars a2) s'.fastMath a0 a1 a2) s'
      (fun r s1 => (r = 0 ∧ s1 = s') ∨ ∃ n, (0 < n ∧ n ≤ info.size ∧
        ∀ P, SizesIn P s' u info.size → SizesIn P s' u n) ∧ Post s' U u (s'.vars a0).type n False
        (V3 s' .fma (s'.vars a0).type a0 a1 a2) r s1) := by
    unfold fmaSimplify
    refine wlp_ite (fun hc => ?_) (fun _ => ?_)
    · refine wlp_mono (add_post h (a0 := a1) (a1 := a2)
        ⟨hi.h1, h2, hi1, by rw [t2, hi.same]⟩) (fun r s1 p => .inr ⟨max (s'.vars a1).size (s'.vars a2).size, ?_, ?_⟩)
      · have := hi.h1.sized; rw [es]
        exact ⟨by omega, by omega, fun P hP => ⟨max_in (hP.2 _ hi.h1.held) (hP.2 _ h2.held), hP.2, hP.3⟩⟩
      · unfold Post2 at p
        rw [hi.same] at p
        refine p.mono False.elim ?_
        rintro l z ⟨x, y, w, hx, hy, hw, hz⟩
        rw [one_val hi.h0 (.inl hi.int) hc hx, hi.same, t2] at hz
        refine ⟨y, w, hy, hw, ?_⟩
        rw [hi.same, t2]
        exact fma_one_left hz
    refine wlp_ite (fun hc => ?_) (fun _ => ?_)
    · refine wlp_mono (add_post h (a0 := a0) (a1 := a2)
        ⟨hi.h0, h2, hi.int, t2⟩) (fun r s1 p => .inr ⟨max (s'.vars a0).size (s'.vars a2).size, ?_, ?_⟩)
      · have := h2.sized; rw [es]
        exact ⟨by omega, by omega, fun P hP => ⟨max_in (hP.2 _ hi.h0.held) (hP.2 _ h2.held), hP.2, hP.3⟩⟩
      · unfold Post2 at p
        refine p.mono False.elim ?_
        rintro l z ⟨x, y, w, hx, hy, hw, hz⟩
        rw [one_val hi.h1 (.inl hi1) hc hy, hi.same, t2] at hz
        refine ⟨x, w, hx, hw, ?_⟩
        rw [t2]
        exact fma_one_right hz
    refine wlp_ite (fun hc => ?_) (fun _ => ?_)
    · refine wlp_mono (mul_post h hi) (fun r s1 p => .inr ⟨max (s'.vars a0).size (s'.vars a1).size, ?_, ?_⟩)
      · have := hi.h0.sized; rw [es]
        exact ⟨by omega, by omega, fun P hP => ⟨max_in (hP.2 _ hi.h0.held) (hP.2 _ hi.h1.held), hP.2, hP.3⟩⟩
      · unfold Post2 at p
        refine p.mono False.elim ?_
        rintro l z ⟨x, y, w, hx, hy, hw, hz⟩
        rw [anyZero_val hi2 hc hw, hi.same, t2] at hz
        refine ⟨x, y, hx, hy, ?_⟩
        rw [hi.same]
        exact fma_zero hz
    refine wlp_ite (fun hc => ?_) (fun _ => wlp_pure (.inl ⟨rfl, rfl⟩))
    refine wlp_mono (inc_post' h h2) (fun r s1 p => .inr ⟨_, ⟨h2.sized, by rw [es]; omega,
      fun P hP => ⟨hP.2 _ h2.held, hP.2, hP.3⟩⟩, ?_⟩)
    rw [t2] at p
    refine p.mono False.elim ?_
    rintro l z ⟨x, y, w, hx, hy, hw, hz⟩
    rw [hi.same, t2] at hz
    have : z = norm (s'.vars a0).type w := by
      simp only [Bool.or_eq_true, Bool.and_eq_true] at hc
      rcases hc with ⟨hc, _⟩ | ⟨hc | hc, _⟩
      · rw [anyZero_val hi.int hc hx] at hz; exact fma_zero_left hz
      · rw [anyZero_val hi.int hc hx] at hz; exact fma_zero_left hz
      · rw [anyZero_val hi1 hc hy] at hz; exact fma_zero_mid hz
    rw [this, ← t2, hw.norm]; exact hw
  refine wlp_bind (wlp_mono hsimp ?_)
  rintro tmp s1 (⟨rfl, rfl⟩ | ⟨n, ⟨hn', hle, hss⟩, p⟩)
  · rw [if_neg (fun e => e rfl)]
    exact wlp_bind (wlp_pure (fin (fun e => hl e.2)))
  rw [if_pos p.ne]
  have ot := p.operand hn'
  obtain ⟨U1, b1, b2, b3, b4, b5, b6, b7, b8, b9, b10⟩ := p
  refine wlp_bind (wlp_mono (resize_post b1 ot hn (by rw [b5]; exact hle)) ?_)
  intro r s2 p2
  rw [b4] at p2
  have p3 : Post s1 U1 (plus u [tmp]) (s'.vars a0).type info.size False
      (V3 s' .fma (s'.vars a0).type a0 a1 a2) r s2 :=
    p2.mono False.elim (fun l z hz => b9 l z hz)
  refine wlp_bind (wlp_mono (p3.finish b2 (b10.mono hle (fun _ => id) hss)
    (fun P hP _ => by rw [b5]; exact (hss P hP).1)) ?_)
  intro _ s3 p5
  refine wlp_bind (wlp_pure ?_)
  exact finish3_done p5.ne (p5.mono (fun e => nl e) (fun _ _ => id))

end Verif.Ops
