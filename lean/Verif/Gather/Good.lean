import Verif.Gather.Part
/-!
# Expressions evaluated at other indices
-/
namespace Verif.Gather
open Verif.Var Verif.Ops

variable {s s' : Store} {U U' : List Nat} {u u' ext base : Nat → Nat} {ev : M Unit}
variable {s0 : Store} {U0 : List Nat} {u0 : Nat → Nat} {src ni mk size : Nat} {P Q : Nat → Prop}

/-- The assumptions about the operands of `jitc_var_reindex()`: `ni` is the new index, `mk` the mask
and `src` the expression. -/
structure Ctx (s0 : Store) (U0 : List Nat) (u0 : Nat → Nat) (src ni mk : Nat) (Q : Nat → Prop) (size : Nat) : Prop where
  st : St s0 U0 u0
  held : 0 < u0 src
  idx : Operand s0 u0 ni
  idxt : (s0.vars ni).type = .u32
  idxs : Q (s0.vars ni).size
  msk : Operand s0 u0 mk
  mskt : (s0.vars mk).type = .bool
  msks : Q (s0.vars mk).size
  typed : Typed s0 src
  pos : 0 < size
  one : Q 1
  sz : Q size

/-- Where the mask is set, the value of `r` is the value of `k` at the position given by the new
index; if the operations in `k` are defined everywhere, then `r` has some value everywhere. -/
structure Good (s0 : Store) (ni mk : Nat) (Q : Nat → Prop) (s : Store) (r k : Nat) : Prop where
  ne : r ≠ 0
  type : (s.vars r).type = (s0.vars k).type
  pos : 0 < (s.vars r).size
  sz : Q (s.vars r).size
  clean : (s.vars r).isDirty = false
  lit : LitOK (s.vars r)
  val : ∀ l X v, Val s0 mk l 1#64 → Val s0 ni l X → Val s0 k X.toNat v → Val s r l v
  tot : Total s0 k → ∀ l X y, Val s0 ni l X → Val s0 mk l y → ∃ v, Val s r l v

/-- Literals are the same literals. -/
structure GoodL (s0 : Store) (ni mk : Nat) (Q : Nat → Prop) (s : Store) (r k : Nat) : Prop where
  good : Good s0 ni mk Q s r k
  literal : (s0.vars k).kind = .literal → (s.vars r).kind = .literal ∧ (s.vars r).literal = (s0.vars k).literal

theorem Good.next {r k : Nat} (g : Good s0 ni mk Q s r k) (h : St s U u) (h' : St s' U' u')
    (e : Evo Q P base s U s' U') (hb : 0 < base r) (al : Alive s U r) : Good s0 ni mk Q s' r k := by
  obtain ⟨_, sm⟩ := same_of h h' e.frame hb al
  have z := e.size r (.inl hb)
  exact ⟨g.ne, by rw [sm.type, g.type], Nat.lt_of_lt_of_le g.pos z.grow, z.mem g.sz, e.clean r hb g.clean, g.lit.body sm.body,
    fun l X v a b c => sm.val _ _ (g.val l X v a b c),
    fun ht l X y a b => (g.tot ht l X y a b).imp fun v hv => sm.val _ _ hv⟩

theorem GoodL.next {r k : Nat} (g : GoodL s0 ni mk Q s r k) (h : St s U u) (h' : St s' U' u')
    (e : Evo Q P base s U s' U') (hb : 0 < base r) (al : Alive s U r) : GoodL s0 ni mk Q s' r k := by
  obtain ⟨_, sm⟩ := same_of h h' e.frame hb al
  refine ⟨g.good.next h h' e hb al, fun hl => ?_⟩
  obtain ⟨a, b⟩ := g.literal hl
  obtain ⟨e1, _, e3, _⟩ := body_fields sm.body
  exact ⟨by rw [e1, a], by rw [e3, b]⟩

theorem Good.operand {r k : Nat} (g : Good s0 ni mk Q s r k) (hu : 0 < u r) : Operand s u r :=
  ⟨hu, g.pos, g.clean, g.lit⟩

/-- A node whose operands were replaced. -/
theorem node_good {r i : Nat} (hk : (s.vars r).kind = (s0.vars i).kind)
    (ht : (s.vars r).type = (s0.vars i).type)
    (hw : (s0.vars i).writePtr = false → (s.vars r).writePtr = false) (hm : s.mem = s0.mem)
    (n1 : (s0.vars i).kind ≠ .literal) (n2 : (s0.vars i).kind ≠ .evaluated)
    (n3 : (s0.vars i).kind ≠ .counter) (n4 : (s0.vars i).kind ≠ .defaultMask)
    (hd : ∀ j, j < 3 → (s0.vars i).dep j ≠ 0 → (s.vars r).dep j ≠ 0 ∧
      Good s0 ni mk Q s ((s.vars r).dep j) ((s0.vars i).dep j))
    (hp : (s0.vars i).kind = .gather → (s0.vars i).d0 ≠ 0 →
      GoodL s0 ni mk Q s (s.vars r).d0 (s0.vars i).d0) :
    (∀ l X v, Val s0 mk l 1#64 → Val s0 ni l X → Val s0 i X.toNat v → Val s r l v) ∧
    (Total s0 i → ∀ l X y, Val s0 ni l X → Val s0 mk l y → ∃ v, Val s r l v) := by
  have g0 : (s0.vars i).d0 ≠ 0 → (s.vars r).d0 ≠ 0 ∧ Good s0 ni mk Q s (s.vars r).d0 (s0.vars i).d0 :=
    hd 0 (by omega)
  have g1 : (s0.vars i).d1 ≠ 0 → (s.vars r).d1 ≠ 0 ∧ Good s0 ni mk Q s (s.vars r).d1 (s0.vars i).d1 :=
    hd 1 (by omega)
  have g2 : (s0.vars i).d2 ≠ 0 → (s.vars r).d2 ≠ 0 ∧ Good s0 ni mk Q s (s.vars r).d2 (s0.vars i).d2 :=
    hd 2 (by omega)
  constructor
  · intro l X v hmk hX hv
    cases hv with
    | literal e => exact absurd e n1
    | evaluated e => exact absurd e n2
    | counter e => exact absurd e n3
    | defaultMask e => exact absurd e n4
    | @gatherOff _ _ m e ew e2 hm2 hb =>
      obtain ⟨a2, b2⟩ := g2 e2
      exact .gatherOff (by rw [hk, e]) (hw ew) a2 (b2.val l X m hmk hX hm2) hb
    | @gatherOn _ _ x m e ew e0 e1 e2 el hx hm2 hb =>
      obtain ⟨a0, b0⟩ := g0 e0
      obtain ⟨a1, b1⟩ := g1 e1
      obtain ⟨a2, b2⟩ := g2 e2
      obtain ⟨c1, c2⟩ := (hp e e0).literal el
      rw [← c2, ← hm, ← ht]
      exact .gatherOn (by rw [hk, e]) (hw ew) a0 a1 a2 c1 (b1.val l X x hmk hX hx)
        (b2.val l X m hmk hX hm2) hb
    | @node1 _ _ x z ew e0 hx hz =>
      obtain ⟨a0, b0⟩ := g0 e0
      exact .node1 (hw ew) a0 (b0.val l X x hmk hX hx) (by rw [hk, ht, b0.type, hz])
    | @node2 _ _ x y z ew e0 e1 hx hy hz =>
      obtain ⟨a0, b0⟩ := g0 e0
      obtain ⟨a1, b1⟩ := g1 e1
      exact .node2 (hw ew) a0 a1 (b0.val l X x hmk hX hx) (b1.val l X y hmk hX hy)
        (by rw [hk, ht, b0.type, b1.type, hz])
    | @node3 _ _ x y w z ew e0 e1 e2 hx hy hw2 hz =>
      obtain ⟨a0, b0⟩ := g0 e0
      obtain ⟨a1, b1⟩ := g1 e1
      obtain ⟨a2, b2⟩ := g2 e2
      exact .node3 (hw ew) a0 a1 a2 (b0.val l X x hmk hX hx) (b1.val l X y hmk hX hy)
        (b2.val l X w hmk hX hw2) (by rw [hk, ht, b0.type, b1.type, b2.type, hz])
  · intro hT l X y hX hy
    cases hT with
    | literal e => exact absurd e n1
    | counter e => exact absurd e n3
    | defaultMask e => exact absurd e n4
    | evaluated e => exact absurd e n2
    | gather e ew e0 e1 e2 el t1 t2 =>
      obtain ⟨a0, b0⟩ := g0 e0
      obtain ⟨a1, b1⟩ := g1 e1
      obtain ⟨a2, b2⟩ := g2 e2
      obtain ⟨m, hm2⟩ := b2.tot t2 l X y hX hy
      obtain ⟨x, hx⟩ := b1.tot t1 l X y hX hy
      by_cases hb : m.getLsbD 0 = true
      · exact ⟨_, .gatherOn (by rw [hk, e]) (hw ew) a0 a1 a2 ((hp e e0).literal el).1 hx hm2 hb⟩
      · exact ⟨_, .gatherOff (by rw [hk, e]) (hw ew) a2 hm2 (by simpa using hb)⟩
    | node1 ew e0 t0 hz =>
      obtain ⟨a0, b0⟩ := g0 e0
      obtain ⟨x, hx⟩ := b0.tot t0 l X y hX hy
      obtain ⟨z, hz⟩ := hz x (by rw [← b0.type]; exact hx.norm)
      exact ⟨z, .node1 (hw ew) a0 hx (by rw [hk, ht, b0.type, hz])⟩
    | node2 ew e0 e1 t0 t1 hz =>
      obtain ⟨a0, b0⟩ := g0 e0
      obtain ⟨a1, b1⟩ := g1 e1
      obtain ⟨x, hx⟩ := b0.tot t0 l X y hX hy
      obtain ⟨x', hx'⟩ := b1.tot t1 l X y hX hy
      obtain ⟨z, hz⟩ := hz x x' (by rw [← b0.type]; exact hx.norm) (by rw [← b1.type]; exact hx'.norm)
      exact ⟨z, .node2 (hw ew) a0 a1 hx hx' (by rw [hk, ht, b0.type, b1.type, hz])⟩
    | node3 ew e0 e1 e2 t0 t1 t2 hz =>
      obtain ⟨a0, b0⟩ := g0 e0
      obtain ⟨a1, b1⟩ := g1 e1
      obtain ⟨a2, b2⟩ := g2 e2
      obtain ⟨x, hx⟩ := b0.tot t0 l X y hX hy
      obtain ⟨x', hx'⟩ := b1.tot t1 l X y hX hy
      obtain ⟨x2, hx2⟩ := b2.tot t2 l X y hX hy
      obtain ⟨z, hz⟩ := hz x x' x2 (by rw [← b0.type]; exact hx.norm) (by rw [← b1.type]; exact hx'.norm)
        (by rw [← b2.type]; exact hx2.norm)
      exact ⟨z, .node3 (hw ew) a0 a1 a2 hx hx' hx2 (by rw [hk, ht, b0.type, b1.type, b2.type, hz])⟩

/-- The state of the recursion: the map `map` holds references to valid results. -/
structure Run (s0 : Store) (U0 : List Nat) (u0 : Nat → Nat) (src ni mk : Nat) (Q : Nat → Prop) (s : Store)
    (U : List Nat) (w : Nat → Nat) (map : Memo) : Prop where
  st : St s U (plus w (map.map Prod.snd))
  evo : Evo Q (Part s0 src) u0 s0 U0 s U
  sub : ∀ k, 0 < u0 k → 0 < w k
  memo : ∀ p ∈ map, Part s0 src p.1 ∧ GoodL s0 ni mk Q s p.2 p.1

theorem Run.held {w : Nat → Nat} {map : Memo} (h : Run s0 U0 u0 src ni mk Q s U w map) {p : Nat × Nat}
    (hp : p ∈ map) : 0 < plus w (map.map Prod.snd) p.2 :=
  plus_apply_pos (h.memo p hp).2.good.ne (List.mem_map_of_mem hp)

/-- The map after further steps. -/
theorem Run.memoNext {w : Nat → Nat} {map : Memo} (h : Run s0 U0 u0 src ni mk Q s U w map)
    (h' : St s' U' u') (e : Evo Q P (plus w (map.map Prod.snd)) s U s' U') :
    ∀ p ∈ map, Part s0 src p.1 ∧ GoodL s0 ni mk Q s' p.2 p.1 := by
  intro p hp
  obtain ⟨a, b⟩ := h.memo p hp
  exact ⟨a, b.next h.st h' e (h.held hp) (h.st.alive (h.held hp))⟩

end Verif.Gather
