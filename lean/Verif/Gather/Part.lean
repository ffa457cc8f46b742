import Verif.Gather.Mask
/-!
# Parts of an expression and steps that keep them
-/
namespace Verif.Gather
open Verif.Var Verif.Ops

variable {s s' : Store} {U U' : List Nat} {u ext base : Nat → Nat} {ev : M Unit}

/-- `k` is a node of the expression `i`. -/
inductive Part (s : Store) (i : Nat) : Nat → Prop
  | root : Part s i i
  | dep {k j : Nat} : Part s i k → (s.vars k).kind ≠ .literal → j < 4 → (s.vars k).dep j ≠ 0 →
      Part s i ((s.vars k).dep j)

/-- Conditions on an expression that hold for expressions made of literals, counters, masks, gathers
and arithmetic: literals are in range, nodes are no pointers that allow writes, counters are 32 bit
integers and the masks of gathers are booleans; there are no operations of other kinds, and literals
(which include pointers) have no first operand. -/
structure Typed (s : Store) (i : Nat) : Prop where
  lit : ∀ k, Part s i k → LitOK (s.vars k)
  read : ∀ k, Part s i k → (s.vars k).kind ≠ .literal → (s.vars k).writePtr = false
  counter : ∀ k, Part s i k → (s.vars k).kind = .counter → (s.vars k).type = .u32
  dmask : ∀ k, Part s i k → (s.vars k).kind = .defaultMask → (s.vars k).type = .bool
  gather : ∀ k, Part s i k → (s.vars k).kind = .gather → (s.vars k).d2 ≠ 0 →
    (s.vars (s.vars k).d2).type = .bool
  pure : ∀ k, Part s i k → ∀ c, (s.vars k).kind ≠ .other c
  leaf : ∀ k, Part s i k → (s.vars k).kind = .literal → (s.vars k).d0 = 0

/-- Every operation of the expression is defined for all values of its operands (it contains no
divisions, shifts, …  that are undefined for some operands). -/
inductive Total (s : Store) : Nat → Prop
  | literal {i : Nat} : (s.vars i).kind = .literal → Total s i
  | counter {i : Nat} : (s.vars i).kind = .counter → Total s i
  | defaultMask {i : Nat} : (s.vars i).kind = .defaultMask → Total s i
  | evaluated {i : Nat} : (s.vars i).kind = .evaluated → Total s i
  | gather {i : Nat} : (s.vars i).kind = .gather → (s.vars i).writePtr = false →
      (s.vars i).d0 ≠ 0 → (s.vars i).d1 ≠ 0 → (s.vars i).d2 ≠ 0 →
      (s.vars (s.vars i).d0).kind = .literal → Total s (s.vars i).d1 → Total s (s.vars i).d2 → Total s i
  | node1 {i : Nat} : (s.vars i).writePtr = false → (s.vars i).d0 ≠ 0 →
      Total s (s.vars i).d0 →
      (∀ x, norm (s.vars (s.vars i).d0).type x = x →
        ∃ z, sem1 (s.vars i).kind (s.vars i).type (s.vars (s.vars i).d0).type x = some z) → Total s i
  | node2 {i : Nat} : (s.vars i).writePtr = false → (s.vars i).d0 ≠ 0 →
      (s.vars i).d1 ≠ 0 → Total s (s.vars i).d0 → Total s (s.vars i).d1 →
      (∀ x y, norm (s.vars (s.vars i).d0).type x = x → norm (s.vars (s.vars i).d1).type y = y →
        ∃ z, sem2 (s.vars i).kind (s.vars i).type (s.vars (s.vars i).d0).type
          (s.vars (s.vars i).d1).type x y = some z) → Total s i
  | node3 {i : Nat} : (s.vars i).writePtr = false → (s.vars i).d0 ≠ 0 →
      (s.vars i).d1 ≠ 0 → (s.vars i).d2 ≠ 0 → Total s (s.vars i).d0 → Total s (s.vars i).d1 →
      Total s (s.vars i).d2 →
      (∀ x y w, norm (s.vars (s.vars i).d0).type x = x → norm (s.vars (s.vars i).d1).type y = y →
        norm (s.vars (s.vars i).d2).type w = w →
        ∃ z, sem3 (s.vars i).kind (s.vars i).type (s.vars (s.vars i).d0).type
          (s.vars (s.vars i).d1).type (s.vars (s.vars i).d2).type x y w = some z) → Total s i

/-- The size of a variable is unchanged, or has grown from a size in `Q` to a size in `Q`. -/
def SizeOK (Q : Nat → Prop) (s s' : Store) (k : Nat) : Prop :=
  (s'.vars k).size = (s.vars k).size ∨
    (Q (s.vars k).size ∧ (s.vars k).size ≤ (s'.vars k).size ∧ Q (s'.vars k).size)

theorem SizeOK.trans {Q : Nat → Prop} {k : Nat} {s'' : Store} (h : SizeOK Q s s' k) (h' : SizeOK Q s' s'' k) :
    SizeOK Q s s'' k := by
  unfold SizeOK at *
  rcases h with h | ⟨h1, h2, h3⟩
  · rw [h] at h'; exact h'
  · rcases h' with h' | ⟨h1', h2', h3'⟩
    · rw [h']; exact .inr ⟨h1, h2, h3⟩
    · exact .inr ⟨h1, by omega, h3'⟩

/-- A variable whose size is in `Q`. -/
theorem SizeOK.mem {Q : Nat → Prop} {k : Nat} (h : SizeOK Q s s' k) (hq : Q (s.vars k).size) :
    Q (s'.vars k).size := by
  rcases h with h | h
  · rw [h]; exact hq
  · exact h.2.2

theorem SizeOK.grow {Q : Nat → Prop} {k : Nat} (h : SizeOK Q s s' k) : (s.vars k).size ≤ (s'.vars k).size := by
  rcases h with h | h
  · omega
  · exact h.2.1

/-- Steps that keep the variables in `base`, except that some may have grown, between sizes in `Q`.
The sizes of the variables in `P` are also tracked. -/
structure Evo (Q P : Nat → Prop) (base : Nat → Nat) (s : Store) (U : List Nat) (s' : Store) (U' : List Nat) :
    Prop where
  frame : Frame base s U s' U'
  size : ∀ k, 0 < base k ∨ P k → SizeOK Q s s' k
  clean : ∀ k, 0 < base k → (s.vars k).isDirty = false → (s'.vars k).isDirty = false

section
variable {Q P : Nat → Prop}

theorem Evo.refl : Evo Q P base s U s U := ⟨.refl, fun _ _ => .inl rfl, fun _ _ => id⟩
theorem Evo.mono {b : Nat → Nat} (h : Evo Q P base s U s' U') (hb : ∀ k, 0 < b k → 0 < base k) :
    Evo Q P b s U s' U' :=
  ⟨h.frame.mono hb, fun k hk => h.size k (hk.imp_left (hb k)), fun k hk => h.clean k (hb k hk)⟩
theorem Evo.trans {s'' : Store} {U'' : List Nat} (h : Evo Q P base s U s' U')
    (h' : Evo Q P base s' U' s'' U'') : Evo Q P base s U s'' U'' :=
  ⟨h.frame.trans h'.frame, fun k hk => (h.size k hk).trans (h'.size k hk),
    fun k hk e => h'.clean k hk (h.clean k hk e)⟩
theorem Evo.trans' {s'' : Store} {U'' : List Nat} {b : Nat → Nat} (h : Evo Q P base s U s' U')
    (h' : Evo Q P b s' U' s'' U'') (hb : ∀ k, 0 < base k → 0 < b k) : Evo Q P base s U s'' U'' :=
  h.trans (h'.mono hb)

theorem PostAt.evo {t : VType} {n r : Nat} {lit : Prop} {V : Nat → BitVec 64 → Prop}
    (h : PostAt s U u t n lit V r s' U') (hS : ∀ k, 0 < u k ∨ P k → SizeOK Q s s' k) : Evo Q P u s U s' U' :=
  ⟨h.frame, hS, h.held.clean⟩

theorem Evo.raw (hf : Frame base s U s' U') (hr : Raw s s')
    (hc : ∀ i, (s.vars i).isDirty = false → (s'.vars i).isDirty = false) : Evo Q P base s U s' U' :=
  ⟨hf, fun k _ => .inl (hr.2 k), fun k _ => hc k⟩
end

theorem dep_mem {v : Var} (hw : v.writePtr = false) {j : Nat} (hj : j < 4) : v.dep j ∈ v.refs := by
  unfold Var.refs
  rw [hw]
  have : j = 0 ∨ j = 1 ∨ j = 2 ∨ j = 3 := by omega
  rcases this with rfl | rfl | rfl | rfl <;> simp [Var.dep]

theorem body_dep {v w : Var} (h : v.body = w.body) (j : Nat) : v.dep j = w.dep j := by
  obtain ⟨_, _, _, e0, e1, e2, e3, _⟩ := body_fields h
  match j with
  | 0 => exact e0
  | 1 => exact e1
  | 2 => exact e2
  | _ + 3 => exact e3

/-- The nodes of an expression held by the caller are kept. -/
theorem part_same {s0 : Store} {U0 : List Nat} {u0 : Nat → Nat} {src k : Nat} (h0 : St s0 U0 u0)
    (hs : 0 < u0 src) (ht : Typed s0 src) (h : St s U u) (hf : Frame u0 s0 U0 s U)
    (hp : Part s0 src k) : Alive s0 U0 k ∧ Alive s U k ∧ (s.vars k).uid < s0.variableCounter ∧
      Same s0 s k := by
  have fin : ∀ {k}, Alive s0 U0 k → Alive s U k → (s.vars k).uid < s0.variableCounter →
      Alive s0 U0 k ∧ Alive s U k ∧ (s.vars k).uid < s0.variableCounter ∧ Same s0 s k := by
    intro k a b c
    exact ⟨a, b, c, (hf.keep k b c).2.1, fun l x hv => hv.frame h.inv hf b c⟩
  induction hp with
  | root =>
    have al := h0.alive hs
    obtain ⟨a, b⟩ := hf.stay src hs al
    exact fin al a (by rw [b]; exact h0.inv.uids _ al)
  | @dep k j hp hk hj hd ih =>
    obtain ⟨a, b, c, d⟩ := ih
    have hw := ht.read k hp hk
    have m0 := dep_mem hw hj
    have q0 := h0.inv.deps k a _ (List.mem_append_left _ m0) hd
    have hw' : (s.vars k).writePtr = false := by rw [(body_fields d.body).2.2.2.2.2.2.2, hw]
    have m1 := dep_mem hw' hj
    rw [body_dep d.body j] at m1
    have q1 := h.inv.deps k b _ (List.mem_append_left _ m1) hd
    exact fin q0.1 q1.1 (by omega)

/-- `incRef` of a variable in use. -/
theorem inc_any {d : Nat} {Q P : Nat → Prop} (h : St s U u) (hd : d = 0 ∨ Alive s U d) :
    wlp (incRef d) s (fun _ s' => St s' U (plus u [d]) ∧ (∀ b, Evo Q P b s U s' U) ∧
      (∀ k, (s'.vars k).size = (s.vars k).size) ∧ ∀ k, Alive s' U k ↔ Alive s U k) := by
  by_cases h0 : d = 0
  · subst h0
    unfold incRef
    rw [if_pos rfl, plus_zero1]
    exact wlp_pure ⟨h, fun _ => .refl, fun _ => rfl, fun _ => Iff.rfl⟩
  · have al : Alive s U d := hd.resolve_left h0
    refine wlp_incRef h0 (wlp_mono (incV h.inv al h.wok) ?_)
    rintro _ s1 ⟨i1, w1, f1, z1, se1, al1⟩
    refine ⟨⟨?_, w1⟩, fun b => ⟨f1 b, fun k _ => .inl (z1 k).1, fun k _ e => by rw [(z1 k).2, e]⟩,
      fun k => (z1 k).1, al1⟩
    unfold IInv
    rw [se1, plus_comm]; exact i1

/-- `incRefV` of a variable in use. -/
theorem incV_any {d : Nat} {Q P : Nat → Prop} (h : St s U u) (hd : Alive s U d) :
    wlp (incRefV d) s (fun _ s' => St s' U (plus u [d]) ∧ (∀ b, Evo Q P b s U s' U) ∧
      (∀ k, (s'.vars k).size = (s.vars k).size) ∧ ∀ k, Alive s' U k ↔ Alive s U k) := by
  refine wlp_mono (incV h.inv hd h.wok) ?_
  rintro _ s1 ⟨i1, w1, f1, z1, se1, al1⟩
  refine ⟨⟨?_, w1⟩, fun b => ⟨f1 b, fun k _ => .inl (z1 k).1, fun k _ e => by rw [(z1 k).2, e]⟩,
      fun k => (z1 k).1, al1⟩
  unfold IInv
  rw [se1, plus_comm]; exact i1

theorem plus_append (l m : List Nat) : plus u (l ++ m) = plus (plus u l) m := by
  funext k
  unfold plus
  rw [List.count_append]
  split <;> omega

theorem plus4' (a b c d : Nat) :
    plus u [a, b, c, d] = plus (plus (plus (plus u [a]) [b]) [c]) [d] := by
  rw [← plus_append, ← plus_append, ← plus_append]; rfl

/-- `dropDeps`. -/
theorem dropDeps_post {dep : Nat → Nat} {Q P : Nat → Prop} (h : St s U (plus u [dep 0, dep 1, dep 2, dep 3])) :
    wlp (dropDeps dep) s (fun _ s' => ∃ U', St s' U' u ∧ Evo Q P u s U s' U') := by
  rw [plus4'] at h
  unfold dropDeps
  refine wlp_bind (wlp_mono (decRef_post h) ?_)
  rintro _ s1 ⟨U1, a1, a2, a3, a4⟩
  refine wlp_bind (wlp_mono (decRef_post a1) ?_)
  rintro _ s2 ⟨U2, b1, b2, b3, b4⟩
  refine wlp_bind (wlp_mono (decRef_post b1) ?_)
  rintro _ s3 ⟨U3, c1, c2, c3, c4⟩
  refine wlp_mono (decRef_post c1) ?_
  rintro _ s4 ⟨U4, d1, d2, d3, d4⟩
  refine ⟨U4, d1, ?_⟩
  have e1 : Evo Q P u s U s1 U1 := (Evo.raw a2 a3 a4).mono
    (fun k hk => plus_pos_left (plus_pos_left (plus_pos_left hk)))
  have e2 : Evo Q P u s1 U1 s2 U2 := (Evo.raw b2 b3 b4).mono (fun k hk => plus_pos_left (plus_pos_left hk))
  have e3 : Evo Q P u s2 U2 s3 U3 := (Evo.raw c2 c3 c4).mono (fun k hk => plus_pos_left hk)
  exact ((e1.trans e2).trans e3).trans (Evo.raw d2 d3 d4)

/-- `takeDeps`. -/
theorem takeDeps_post {dep : Nat → Nat} {Q P : Nat → Prop} (h : St s U u)
    (hd : ∀ j, j < 4 → dep j = 0 ∨ Alive s U (dep j)) :
    wlp (takeDeps dep) s (fun _ s' => St s' U (plus u [dep 0, dep 1, dep 2, dep 3]) ∧
      (∀ b, Evo Q P b s U s' U) ∧
      (∀ k, (s'.vars k).size = (s.vars k).size) ∧ ∀ k, Alive s' U k ↔ Alive s U k) := by
  unfold takeDeps
  refine wlp_bind (wlp_mono (inc_any (Q := Q) (P := P) h (hd 0 (by omega))) ?_)
  rintro _ s1 ⟨a1, a2, a3, a4⟩
  refine wlp_bind (wlp_mono (inc_any (Q := Q) (P := P) a1 ((hd 1 (by omega)).imp_right fun e => (a4 _).2 e)) ?_)
  rintro _ s2 ⟨b1, b2, b3, b4⟩
  refine wlp_bind (wlp_mono (inc_any (Q := Q) (P := P) b1 ((hd 2 (by omega)).imp_right
    fun e => (b4 _).2 ((a4 _).2 e))) ?_)
  rintro _ s3 ⟨c1, c2, c3, c4⟩
  refine wlp_mono (inc_any (Q := Q) (P := P) c1 ((hd 3 (by omega)).imp_right
    fun e => (c4 _).2 ((b4 _).2 ((a4 _).2 e)))) ?_
  rintro _ s4 ⟨d1, d2, d3, d4⟩
  rw [plus4']
  exact ⟨d1, fun b => (((a2 b).trans (b2 b)).trans (c2 b)).trans (d2 b),
    fun k => (d3 k).trans ((c3 k).trans ((b3 k).trans (a3 k))),
    fun k => (d4 k).trans ((c4 k).trans ((b4 k).trans (a4 k)))⟩

end Verif.Gather
