import Verif.Gather.Try
import Verif.Gather.GatherSpec
/-!
# Gathers from evaluated and unevaluated arrays
-/
namespace Verif.Gather
open Verif.Var Verif.Ops

variable {s s' s'' : Store} {U U' : List Nat} {u u' ext base w : Nat → Nat} {ev : M Unit}
variable {src : Nat}

/-! ## Values -/

/-- Total expressions have values. -/
theorem total_val {i : Nat} (h : Total s i) (l : Nat) : ∃ v, Val s i l v := by
  induction h with
  | literal hk => exact ⟨_, .literal hk⟩
  | counter hk => exact ⟨_, .counter hk⟩
  | defaultMask hk => exact ⟨_, .defaultMask hk⟩
  | evaluated hk => exact ⟨_, .evaluated hk⟩
  | gather hk hw e0 e1 e2 h0 _ _ i1 i2 =>
    obtain ⟨x, hx⟩ := i1
    obtain ⟨m, hm⟩ := i2
    by_cases hb : m.getLsbD 0 = true
    · exact ⟨_, .gatherOn hk hw e0 e1 e2 h0 hx hm hb⟩
    · exact ⟨_, .gatherOff hk hw e2 hm (by simpa using hb)⟩
  | node1 hw e0 _ hz i0 =>
    obtain ⟨x, hx⟩ := i0
    obtain ⟨z, e⟩ := hz x hx.norm
    exact ⟨z, .node1 hw e0 hx e⟩
  | node2 hw e0 e1 _ _ hz i0 i1 =>
    obtain ⟨x, hx⟩ := i0
    obtain ⟨y, hy⟩ := i1
    obtain ⟨z, e⟩ := hz x y hx.norm hy.norm
    exact ⟨z, .node2 hw e0 e1 hx hy e⟩
  | node3 hw e0 e1 e2 _ _ _ hz i0 i1 i2 =>
    obtain ⟨x, hx⟩ := i0
    obtain ⟨y, hy⟩ := i1
    obtain ⟨v, hv⟩ := i2
    obtain ⟨z, e⟩ := hz x y v hx.norm hy.norm hv.norm
    exact ⟨z, .node3 hw e0 e1 e2 hx hy hv e⟩

/-- Casts of positions. -/
theorem idx_cast {t t' : VType} (ht : t.isInt = true) (h' : t' = .u32 ∨ t' = .u64) (x : BitVec 64) :
    ∃ X, sem1 .cast t' t x = some X ∧ ∀ p : Nat, cInt t x = p → p < 2 ^ 32 → X.toNat = p := by
  have hi' : t'.isInt = true := by rcases h' with rfl | rfl <;> rfl
  have hb' : t' ≠ .bool := by rcases h' with rfl | rfl <;> decide
  have hb : t ≠ .bool := by rintro rfl; cases ht
  have hw : 32 ≤ t'.bits ∧ t'.bits ≤ 64 := by rcases h' with rfl | rfl <;> decide
  simp only [sem1, if_neg (fun e : t' = .bool ∧ _ => hb' e.1), if_neg (fun e : t = .bool ∧ _ => hb e.1),
    if_pos (And.intro hi' ht)]
  refine ⟨_, rfl, fun p hp hlt => ?_⟩
  have hpow : 2 ^ 32 ≤ 2 ^ t'.bits := Nat.pow_le_pow_right (by omega) hw.1
  unfold cInt at hp
  have h1 : ∀ y : BitVec t'.bits, y.toNat = p → (y.setWidth 64).toNat = p := by
    intro y hy
    rw [BitVec.toNat_setWidth, hy]
    exact Nat.mod_eq_of_lt (by omega)
  apply h1
  by_cases hs : t.isSint = true
  · rw [if_pos hs] at hp ⊢
    rw [BitVec.signExtend, hp, BitVec.toNat_ofInt]
    have : ((p : Int) % ((2 ^ t'.bits : Nat) : Int)) = p := by
      rw [← Int.natCast_mod, Nat.mod_eq_of_lt (by omega)]
    rw [this]; rfl
  · rw [if_neg hs] at hp ⊢
    rw [BitVec.toNat_setWidth]
    have : (x.setWidth t.bits).toNat = p := by exact_mod_cast hp
    rw [this]
    exact Nat.mod_eq_of_lt (by omega)

/-- A value of a variable of size 1 is its value in all lanes. -/
def UVal (s : Store) (k l : Nat) (x : BitVec 64) : Prop :=
  Entry s k l x ∧ ((s.vars k).size = 1 → ∀ l', Entry s k l' x)

theorem Shaped.entry {k l : Nat} {x : BitVec 64} (h : Shaped s k) (c : Covers (s.vars k).size l)
    (hv : Val s k l x) : Entry s k l x := by
  refine ⟨hv, fun j hj => ?_⟩
  have := h j hj
  unfold Covers at *
  omega

theorem Uniform.val {k l : Nat} {x : BitVec 64} (h : Uniform s k) (hs : Shaped s k)
    (c : Covers (s.vars k).size l) (hv : Val s k l x) : UVal s k l x :=
  ⟨hs.entry c hv, fun e l' => hs.entry (.inr e) (h e l l' x hv)⟩

/-- Steps keep the variables that an expression involves. -/
theorem reads_back (h : St s U u) (h' : St s' U' u') (hf : Frame base s U s' U') {k j : Nat} (hk : 0 < base k)
    (ha : Alive s U k)
    (hr : Reads s' k j) : Reads s k j ∧ Alive s' U' j ∧ (s'.vars j).uid < s.variableCounter ∧
      (j = k ∨ (s'.vars j).size = (s.vars j).size) := by
  induction hr with
  | root =>
    obtain ⟨a, b⟩ := hf.stay k hk ha
    exact ⟨.root, a, by rw [b]; exact h.inv.uids _ ha, .inl rfl⟩
  | @dep i d _ hl hd h0 ih =>
    obtain ⟨r, al, lt, _⟩ := ih
    obtain ⟨_, b, _⟩ := hf.keep i al lt
    obtain ⟨a1, a2⟩ := h'.inv.deps i al d (List.mem_append_left _ hd) h0
    rw [body_refs b] at hd
    rw [body_kind b] at hl
    exact ⟨.dep r hl hd h0, a1, by omega, .inr (hf.ops i al lt d hd h0)⟩

theorem entry_frame (h : St s U u) (h' : St s' U' u') (hf : Frame base s U s' U') {k l : Nat} {x : BitVec 64}
    (hk : 0 < base k) (ha : Alive s U k) (c : Covers (s'.vars k).size l) (hv : Entry s k l x) : Entry s' k l x := by
  refine ⟨(same_of h h' hf hk ha).2.val l x hv.1, fun j hj => ?_⟩
  obtain ⟨r, _, _, e⟩ := reads_back h h' hf hk ha hj
  rcases e with rfl | e
  · exact c
  · rw [e]; exact hv.2 j r

theorem shaped_frame (h : St s U u) (h' : St s' U' u') (hf : Frame u s U s' U') {k : Nat}
    (hk : 0 < u k) (c : (s'.vars k).size = (s.vars k).size) (hv : Shaped s k) : Shaped s' k := by
  intro j hj
  obtain ⟨r, _, _, e⟩ := reads_back h h' hf hk (h.alive hk) hj
  rcases e with rfl | e
  · exact .inr rfl
  · rw [e, c]; exact hv j r

/-! ## Variables held by the caller -/

/-- As `Keeps`, with the sizes described by `Q`. -/
structure Obs (Q : Nat → Prop) (u : Nat → Nat) (s s' : Store) : Prop where
  type : ∀ k, 0 < u k → (s'.vars k).type = (s.vars k).type
  size : ∀ k, 0 < u k → SizeOK Q s s' k
  clean : ∀ k, 0 < u k → (s.vars k).isDirty = false → (s'.vars k).isDirty = false
  lit : ∀ k, 0 < u k → LitOK (s.vars k) → LitOK (s'.vars k)
  val : ∀ k, 0 < u k → ∀ l x, Covers (s'.vars k).size l →
    ((s.vars k).size = 1 → ∀ l', Entry s k l' x) → Entry s k l x → Entry s' k l x

/-- Sizes cannot grow twice. -/
def Top2 (Q : Nat → Prop) : Prop := ∀ a b, Q a → Q b → 1 < a → a ≤ b → a = b

theorem gsize_top2 {n N : Nat} (h : n ≠ 1 → N = n) : Top2 (GSize n N) := by
  intro a b ha hb h1 hle
  unfold GSize at *
  omega

theorem Obs.refl {Q : Nat → Prop} : Obs Q u s s :=
  ⟨fun _ _ => rfl, fun _ _ => .inl rfl, fun _ _ => id, fun _ _ => id, fun _ _ _ _ _ _ => id⟩

theorem Obs.mono {Q : Nat → Prop} (h : Obs Q u s s') (hu : ∀ k, 0 < u' k → 0 < u k) : Obs Q u' s s' :=
  ⟨fun k hk => h.type k (hu k hk), fun k hk => h.size k (hu k hk), fun k hk => h.clean k (hu k hk),
    fun k hk => h.lit k (hu k hk), fun k hk => h.val k (hu k hk)⟩

theorem Obs.mid {Q : Nat → Prop} (hQ : Top2 Q) {k l : Nat} (z1 : SizeOK Q s s' k) (z2 : SizeOK Q s' s'' k)
    (c : Covers (s.vars k).size l) (c' : Covers (s''.vars k).size l) : Covers (s'.vars k).size l := by
  unfold SizeOK at z1 z2
  unfold Covers at *
  rcases z1 with z1 | ⟨q1, g1, q1'⟩
  · rw [z1]; exact c
  · rcases z2 with z2 | ⟨_, g2, q2'⟩
    · rw [← z2]; exact c'
    · have hh := hQ _ _ q1' q2'
      by_cases e : 1 < (s'.vars k).size
      · have := hh e g2
        omega
      · omega

theorem Obs.trans {Q : Nat → Prop} (hQ : Top2 Q) (h : Obs Q u s s') (h' : Obs Q u s' s'') : Obs Q u s s'' := by
  refine ⟨fun k hk => (h'.type k hk).trans (h.type k hk), fun k hk => (h.size k hk).trans (h'.size k hk),
    fun k hk e => h'.clean k hk (h.clean k hk e), fun k hk e => h'.lit k hk (h.lit k hk e), ?_⟩
  intro k hk l x c' hu hv
  have c := hv.2 k .root
  have cm := Obs.mid hQ (h.size k hk) (h'.size k hk) c c'
  refine h'.val k hk l x c' (fun e l' => ?_) (h.val k hk l x cm hu hv)
  have hs : (s.vars k).size = 1 := by
    have := (h.size k hk).grow
    unfold Covers at c
    omega
  exact h.val k hk l' x (.inr e) hu (hu hs l')

theorem Evo.obs {Q P : Nat → Prop} (h : St s U u) (h' : St s' U' u') (e : Evo Q P u s U s' U') : Obs Q u s s' := by
  have sm : ∀ k, 0 < u k → Same s s' k := fun k hk => (same_of h h' e.frame hk (h.alive hk)).2
  exact ⟨fun k hk => (sm k hk).type, fun k hk => e.size k (.inl hk), e.clean,
    fun k hk hl => hl.body (sm k hk).body, fun k hk l x c _ hv => entry_frame h h' e.frame hk (h.alive hk) c hv⟩

/-- Values that are defined for all lanes of the array. -/
theorem Obs.uval {Q : Nat → Prop} (h : Obs Q u s s') {k l : Nat} {x : BitVec 64} (hk : 0 < u k)
    (hv : UVal s k l x) (c' : Covers (s'.vars k).size l) : UVal s' k l x := by
  have c := hv.1.2 k .root
  refine ⟨h.val k hk l x c' hv.2 hv.1, fun e l' => ?_⟩
  have hs : (s.vars k).size = 1 := by
    have := (h.size k hk).grow
    unfold Covers at c
    omega
  exact h.val k hk l' x (.inr e) hv.2 (hv.2 hs l')

theorem Obs.operand {Q : Nat → Prop} (h : Obs Q u s s') {k : Nat} (ho : Operand s u k) : Operand s' u k := by
  refine ⟨ho.held, ?_, h.clean k ho.held ho.clean, h.lit k ho.held ho.lit⟩
  have := (h.size k ho.held).grow
  have := ho.sized
  omega

/-- The values of a gather, in the form that steps preserve. -/
def GV (s : Store) (stack : List Nat) (src idx mask n l : Nat) (z : BitVec 64) : Prop :=
  l < n ∧ ∃ x, UVal s idx l x ∧
    ((UVal s mask l 1#64 ∧ (usable s stack n ≠ 0 → UVal s (usable s stack n) l 1#64) ∧
        ∃ p : Nat, cInt (s.vars idx).type x = p ∧ p < (s.vars src).size ∧ UVal s src p z) ∨
      (UVal s mask l 0#64 ∧ (usable s stack n ≠ 0 → ∃ w, UVal s (usable s stack n) l w) ∧ z = 0#64))

/-- Sizes that occur are not smaller than `n`, or 1. -/
theorem covers_q {n N a l : Nat} (hn : n ≤ N) (h : GSize n N a) (hl : l < n) : Covers a l := by
  unfold GSize Covers at *
  omega

/-- The values do not change. -/
theorem GV.next {stack : List Nat} {idx mask n N l : Nat} {z : BitVec 64} (hn : n ≤ N)
    (h : Obs (GSize n N) u s s') (hsrc : 0 < u src) (hidx : 0 < u idx) (hmask : 0 < u mask)
    (hst : ∀ t, stack.head? = some t → 0 < u t)
    (hus : usable s' stack n = usable s stack n)
    (qi : GSize n N (s.vars idx).size) (qm : GSize n N (s.vars mask).size)
    (qt : usable s stack n ≠ 0 → GSize n N (s.vars (usable s stack n)).size)
    (hv : GV s stack src idx mask n l z) : GV s' stack src idx mask n l z := by
  obtain ⟨hl, x, hx, hz⟩ := hv
  have tr : ∀ {k y}, 0 < u k → GSize n N (s.vars k).size → UVal s k l y → UVal s' k l y := fun hk q hy =>
    h.uval hk hy (covers_q hn ((h.size _ hk).mem q) hl)
  refine ⟨hl, x, tr hidx qi hx, ?_⟩
  rcases hz with ⟨hm, ht, p, e, hp, hs⟩ | ⟨hm, ht, e⟩
  · refine .inl ⟨tr hmask qm hm, ?_, p, by rw [h.type idx hidx]; exact e, ?_, ?_⟩
    · rw [hus]; intro h0; exact tr (hst _ (usable_mem h0)) (qt h0) (ht h0)
    · have := (h.size src hsrc).grow; omega
    · have := (h.size src hsrc).grow
      exact h.uval hsrc hs (.inl (by omega))
  · refine .inr ⟨tr hmask qm hm, ?_, e⟩
    rw [hus]; intro h0
    obtain ⟨y, hy⟩ := ht h0
    exact ⟨y, tr (hst _ (usable_mem h0)) (qt h0) hy⟩

end Verif.Gather
