import Verif.Ops.Store
/-!
# Constructors with respect to values
-/
namespace Verif.Ops
open Verif.Var

variable {s s' : Store} {U U' : List Nat} {u ext base : Nat → Nat} {ev : M Unit}

/-! ## Releasing references -/

/-- Sizes and the number of variables created so far are unchanged. -/
def Raw (s s' : Store) : Prop :=
  s'.variableCounter = s.variableCounter ∧ ∀ i, (s'.vars i).size = (s.vars i).size

theorem Raw.refl : Raw s s := ⟨rfl, fun _ => rfl⟩
theorem Raw.trans {s'' : Store} (h1 : Raw s s') (h2 : Raw s' s'') : Raw s s'' :=
  ⟨h2.1.trans h1.1, fun i => (h2.2 i).trans (h1.2 i)⟩
theorem Raw.set {i : Nat} {v : Var} (h : v.size = (s.vars i).size) : Raw s (s.set i v) := by
  refine ⟨rfl, fun k => ?_⟩
  by_cases hk : k = i
  · subst hk; rw [set_self, h]
  · rw [set_ne _ _ hk]

theorem raw_decDep {d : Nat} {a : Nat × List Nat} : wlp (decDep d a) s (fun _ s' => Raw s s') := by
  intro b s' e
  unfold decDep at e
  split at e
  · cases e; exact Raw.refl
  split at e
  · cases e
  dsimp only at e
  split at e
  · split at e <;> cases e <;> exact Raw.set rfl
  · cases e; exact Raw.set rfl

theorem raw_decDepSe {d : Nat} {a : Nat × List Nat} :
    wlp (decDepSe d a) s (fun _ s' => Raw s s') := by
  intro b s' e
  unfold decDepSe at e
  split at e
  · cases e; exact Raw.refl
  split at e
  · cases e
  dsimp only at e
  split at e <;> cases e <;> exact Raw.set rfl

theorem raw_lvnDrop (i : Nat) : Raw s (s.lvnDrop i) ∧ (s.lvnDrop i).vars = s.vars := by
  unfold Store.lvnDrop
  split
  · split
    · exact ⟨⟨rfl, fun _ => rfl⟩, rfl⟩
    · exact ⟨Raw.refl, rfl⟩
  · exact ⟨Raw.refl, rfl⟩

theorem raw_release (i : Nat) : Raw s (s.release i) := by
  have h : ∀ t : Store, Raw s t → t.vars = s.vars →
      Raw s { (t.set i { s.vars i with counter := (s.vars i).counter + 1 }) with
        unused := (t.set i { s.vars i with counter := (s.vars i).counter + 1 }).unused.push i } := by
    intro t ht hv
    have := ht.trans (Raw.set (s := t) (i := i)
      (v := { s.vars i with counter := (s.vars i).counter + 1 }) (by rw [hv]))
    exact this
  unfold Store.release
  by_cases he : (s.vars i).isEvaluated
  · by_cases hr : (s.vars i).retainData
    · simpa [he, hr] using h s Raw.refl rfl
    · simpa [he, hr] using h { s with freed := (s.vars i).literal :: s.freed }
        ⟨rfl, fun _ => rfl⟩ rfl
  · simpa [he] using h (s.lvnDrop i) (raw_lvnDrop i).1 (raw_lvnDrop i).2

theorem raw_freeBody {i : Nat} {todo : List Nat} :
    wlp (freeBody i todo) s (fun _ s' => Raw s s') := by
  intro b s' e
  unfold freeBody at e
  dsimp only at e
  have h0 := raw_release (s := s) i
  split at e
  · exact h0.trans (raw_decDepSe _ _ e)
  · refine h0.trans ?_
    have : wlp (do
      let a ← decDep (s.vars i).d0 (0, todo)
      let a ← decDep (s.vars i).d1 a
      let a ← decDep (s.vars i).d2 a
      decDep (s.vars i).d3 a) (s.release i) (fun _ s' => Raw (s.release i) s') := by
      refine wlp_bind (wlp_mono raw_decDep fun _ s1 r1 => ?_)
      refine wlp_bind (wlp_mono raw_decDep fun _ s2 r2 => ?_)
      refine wlp_bind (wlp_mono raw_decDep fun _ s3 r3 => ?_)
      exact wlp_mono raw_decDep fun _ s4 r4 => r1.trans (r2.trans (r3.trans r4))
    exact this _ _ e

theorem raw_freeLoop : ∀ (n i : Nat) (todo : List Nat) {s : Store},
    wlp (freeLoop n i todo) s (fun _ s' => Raw s s')
  | 0, _, _, _ => wlp_abort
  | n + 1, i, todo, s => by
    unfold freeLoop
    refine wlp_bind (wlp_mono raw_freeBody fun a s1 r1 => ?_)
    refine wlp_ite (fun _ => ?_) (fun _ => ?_)
    · exact wlp_mono (raw_freeLoop n _ _) fun _ _ r => r1.trans r
    · split
      · exact wlp_pure r1
      · exact wlp_mono (raw_freeLoop n _ _) fun _ _ r => r1.trans r

theorem raw_decRef {d : Nat} : wlp (decRef d) s (fun _ s' => Raw s s') := by
  unfold decRef
  refine wlp_ite (fun _ => wlp_pure Raw.refl) (fun _ => ?_)
  refine wlp_bind ?_
  intro v s1 e
  have : s1 = s := by
    unfold getVar at e
    split at e <;> cases e
    rfl
  subst this
  refine wlp_ite (fun _ => wlp_stop) (fun _ => ?_)
  refine wlp_bind (wlp_modify ?_)
  have r1 : Raw s1 (s1.set d { s1.vars d with refCount := (s1.vars d).refCount - 1 }) := Raw.set rfl
  refine wlp_ite (fun _ => wlp_pure r1) (fun _ => ?_)
  intro a s2 e
  exact r1.trans (raw_freeLoop _ _ _ _ _ e)

/-! ## What a constructor guarantees -/

/-- A predicate that holds for 1, `n` and the sizes of all variables held by the caller. -/
structure SizesIn (P : Nat → Prop) (s : Store) (u : Nat → Nat) (n : Nat) : Prop where
  size : P n
  held : ∀ j, 0 < u j → P (s.vars j).size
  one : P 1

/-- Variables held by the caller keep their sizes, except that a variable may have grown, to at
most `n`; new sizes are 1, `n` or the sizes of other variables held by the caller.  There are no new
pending writes to them. -/
structure Held (s : Store) (u : Nat → Nat) (n : Nat) (s' : Store) : Prop where
  size : ∀ k, 0 < u k → (s'.vars k).size = (s.vars k).size ∨
    ((s.vars k).size ≤ (s'.vars k).size ∧ (s'.vars k).size ≤ n)
  clean : ∀ k, 0 < u k → (s.vars k).isDirty = false → (s'.vars k).isDirty = false
  sizes : ∀ P, SizesIn P s u n → SizesIn P s' u n

theorem Held.refl {n : Nat} : Held s u n s := ⟨fun _ _ => .inl rfl, fun _ _ => id, fun _ => id⟩

/-- Sizes did not change. -/
theorem Held.same {n : Nat} (h : ∀ k, 0 < u k → (s'.vars k).size = (s.vars k).size ∧
    ((s.vars k).isDirty = false → (s'.vars k).isDirty = false)) : Held s u n s' :=
  ⟨fun k hk => .inl (h k hk).1, fun k hk => (h k hk).2, fun _ hP => ⟨hP.1, fun k hk => by
    rw [(h k hk).1]; exact hP.2 k hk, hP.3⟩⟩

theorem Held.trans {s'' : Store} {n : Nat} (h : Held s u n s') (h' : Held s' u n s'') :
    Held s u n s'' := by
  refine ⟨fun k hk => ?_, fun k hk e => h'.clean k hk (h.clean k hk e), fun P hP => h'.sizes P (h.sizes P hP)⟩
  have a1 := h.size k hk
  have b1 := h'.size k hk
  omega

theorem Held.mono {u' : Nat → Nat} {n m : Nat} (h : Held s u n s') (hm : n ≤ m)
    (hu : ∀ k, 0 < u' k → 0 < u k) (hs : ∀ P, SizesIn P s u' m → SizesIn P s u n) : Held s u' m s' := by
  refine ⟨fun k hk => ?_, fun k hk => h.clean k (hu k hk), fun P hP => ⟨hP.1, fun k hk => ?_, hP.3⟩⟩
  · have a1 := h.size k (hu k hk)
    omega
  · exact (h.sizes P (hs P hP)).2 k (hu k hk)

/-- The caller obtained a reference to a variable `r` of type `t` and size `n` whose value in
thread `l` is `z` whenever `V l z`; it is a literal if `lit`. -/
def Post (s : Store) (U : List Nat) (u : Nat → Nat) (t : VType) (n : Nat) (lit : Prop)
    (V : Nat → BitVec 64 → Prop) (r : Nat) (s' : Store) : Prop :=
  ∃ U', St s' U' (plus u [r]) ∧ Frame u s U s' U' ∧ Alive s' U' r ∧ (s'.vars r).type = t ∧
    (s'.vars r).size = n ∧ (s'.vars r).isDirty = false ∧ LitOK (s'.vars r) ∧
    (lit → (s'.vars r).kind = .literal) ∧ (∀ l z, V l z → Val s' r l z) ∧ Held s u n s'

theorem Post.mono {t : VType} {n : Nat} {lit lit' : Prop} {V V' : Nat → BitVec 64 → Prop} {r : Nat}
    (h : Post s U u t n lit V r s') (hl : lit' → lit) (hV : ∀ l z, V' l z → V l z) :
    Post s U u t n lit' V' r s' := by
  obtain ⟨U', a1, a2, a3, a4, a5, a6, a7, a8, a9, a10⟩ := h
  exact ⟨U', a1, a2, a3, a4, a5, a6, a7, fun h => a8 (hl h), fun l z h => a9 l z (hV l z h), a10⟩

/-- A held variable after some steps. -/
theorem held_keep {P P' : List Nat} {ext' extSe extSe' : Nat → Nat} (h : Inv s U ext extSe P)
    (h' : Inv s' U' ext' extSe' P') (hf : Frame base s U s' U') {i : Nat} (hb : 0 < base i)
    (hi : Alive s U i) : Alive s' U' i ∧ (s'.vars i).body = (s.vars i).body ∧
      ((s.vars i).kind = .evaluated → (s'.vars i).size = (s.vars i).size) ∧
      ∀ l x, Val s i l x → Val s' i l x := by
  obtain ⟨a, b⟩ := hf.stay i hb hi
  have hu : (s'.vars i).uid < s.variableCounter := by rw [b]; exact h.uids i hi
  obtain ⟨_, c, d⟩ := hf.keep i a hu
  exact ⟨a, c, d, fun l x hv => hv.frame h' hf a hu⟩

theorem St.alive (h : St s U u) {i : Nat} (hi : 0 < u i) : Alive s U i :=
  h.inv.alive_of_ext (plus_pos_left hi)

/-- Sizes are unchanged and there are no new pending writes. -/
def Keep (s : Store) (U : List Nat) (s' : Store) : Prop :=
  ∀ k, Alive s U k → (s'.vars k).size = (s.vars k).size ∧
    ((s.vars k).isDirty = false → (s'.vars k).isDirty = false)

theorem Keep.held (h : St s U u) {n : Nat} (hk : Keep s U s') : Held s u n s' :=
  .same fun k hu => hk k (h.alive hu)

/-- The result of the creation of an unevaluated variable that holds ordinary references. -/
theorem varNew_post {v : Var} {dl : Bool} (hc : v.refCount = 0) (hcs : v.refCountSe = 0)
    (hw : v.writePtr = false) (hk : v.kind ≠ .evaluated)
    (h : Inv s U (plus ext v.refs) (fun _ => 0) []) (hwok : WOK s) :
    wlp (varNew v dl) s (fun r s' => ∃ U', Inv s' U' (plus ext [r]) (fun _ => 0) [] ∧
      Frame ext s U s' U' ∧ Alive s' U' r ∧ (s'.vars r).key = (v.placed s).key ∧ WOK s' ∧
      (s'.vars r).isDirty = false ∧ Keep s U s') := by
  intro r s' e
  have e2 : v.refsSe = [] := by simp [Var.refsSe, hw]
  obtain ⟨U', a1, a2, a3, a4, a5⟩ := wp_ok (varNew_spec (R := fun _ => True) (dl := dl) hc hcs
    (ext := ext) (extSe := fun _ => 0) (s := s) (U := U) (by rw [e2, plus_nil]; exact h)) e
  have hkr : (s'.vars r).kind ≠ .evaluated := by
    have : (s'.vars r).kind = v.kind := congrArg Key.kind a4
    rw [this]; exact hk
  have live : ∀ k, Alive s U k → (s.vars k).refCount ≠ 0 ∨ (s.vars k).refCountSe ≠ 0 := by
    intro k hk
    have := h.counts_pos hk
    omega
  have hwok' : WOK s' := by
    rcases a5 with ⟨_, _, _, hvc, _⟩ | ⟨_, hr, _, _, _, hne⟩
    · exact wok_frame h a1 a2 hvc hwok
    · intro i hi
      by_cases hir : i = r
      · subst hir
        rw [hr] at hi
        have : v.refCountSe = 0 := hcs
        change 0 < v.refCountSe at hi
        omega
      · rw [hne i hir] at hi ⊢
        exact hwok i hi
  refine ⟨U', a1, a2, a3, a4, hwok', hwok'.clean hkr, ?_⟩
  intro k hk'
  rcases a5 with ⟨_, _, _, hvc, hsz⟩ | ⟨_, _, _, h1, h2, hne⟩
  · exact ⟨hsz k (live k hk'), clean_frame h a1 a2 hvc⟩
  · have : k ≠ r := by
      rintro rfl
      have := live k hk'
      omega
    rw [hne k this]
    exact ⟨rfl, id⟩

theorem norm_mask (t : VType) (x : BitVec 64) : norm t (t.mask x) = norm t x := by
  unfold norm VType.mask
  congr 1
  apply BitVec.eq_of_getLsbD_eq
  intro i hi
  have h1 := bits_le t
  have h2 : t.bits ≤ 8 * t.bytes := by cases t <;> decide
  simp [hi, show i < 64 by omega, show i < 8 * t.bytes by omega]

theorem mask_norm (t : VType) (x : BitVec 64) (h : t = .bool → norm .bool x = x) :
    norm t (t.mask x) = t.mask x := by
  by_cases hb : t = .bool
  · subst hb
    rcases norm_bool (h rfl) with rfl | rfl <;> rfl
  · unfold norm VType.mask
    have : t.bits = 8 * t.bytes := by revert hb; cases t <;> decide
    rw [← this, setWidth_setWidth (bits_le t)]

/-- Literals. -/
theorem literal_post (h : St s U u) {b n : Nat} {t : VType} {x : BitVec 64} (hn : 0 < n)
    (hx : t = .bool → norm .bool x = x) :
    wlp (varLiteral b t x n) s (fun r s' => Post s U u t n True (fun _ z => z = norm t x) r s' ∧
      (s'.vars r).literal = t.mask x ∧ (s'.vars r).backend = b ∧ Keep s U s') := by
  unfold varLiteral
  refine wlp_ite (fun e => absurd e (by omega)) (fun _ => ?_)
  refine wlp_ite (fun _ => wlp_raise) (fun _ => ?_)
  have h0 : Inv s U (plus (plus u s.sideEffects) [0, 0, 0, 0]) (fun _ => 0) [] := by
    simp only [plus_zero, plus_nil]; exact h.inv
  refine wlp_mono (varNew_post rfl rfl rfl (fun e => nomatch e) h0 h.wok) ?_
  rintro r s' ⟨U', a1, a2, a3, a4, a5, a6, a7⟩
  have k1 : (s'.vars r).kind = .literal := congrArg Key.kind a4
  have k2 : (s'.vars r).type = t := congrArg Key.type a4
  have k3 : (s'.vars r).literal = t.mask x := congrArg Key.literal a4
  refine ⟨⟨U', ⟨IInv.of_frame a1 a2, a5⟩, a2.user, a3, k2, congrArg Key.size a4, a6, ?_,
    fun _ => k1, ?_, a7.held h⟩, k3, congrArg Key.backend a4, a7⟩
  · intro _; rw [k2, k3]; exact mask_norm t x hx
  · rintro l z rfl
    have := Val.literal (l := l) k1
    rw [k2, k3, norm_mask] at this
    exact this

theorem incV (h : Inv s U ext (fun _ => 0) []) {i : Nat} (hi : Alive s U i) (hw : WOK s) :
    wlp (incRefV i) s (fun _ s' => Inv s' U (plus ext [i]) (fun _ => 0) [] ∧ WOK s' ∧
      (∀ b, Frame b s U s' U) ∧ (∀ k, (s'.vars k).size = (s.vars k).size ∧
        (s'.vars k).isDirty = (s.vars k).isDirty) ∧
      s'.sideEffects = s.sideEffects ∧ ∀ k, Alive s' U k ↔ Alive s U k) := by
  intro a s' e
  obtain ⟨a1, rfl⟩ := wp_ok (incRefV_spec h hi (R := fun _ => True)) e
  refine ⟨a1, wok_inc hw _ _, fun _ => Frame.setCounts, ?_, rfl, fun _ => Iff.rfl⟩
  intro k
  by_cases hk : k = i
  · subst hk; rw [set_self]; exact ⟨rfl, rfl⟩
  · rw [set_ne _ _ hk]; exact ⟨rfl, rfl⟩

theorem wlp_clean {α : Type} {ops again : List Nat} (h : ∀ a ∈ ops, (s.vars a).isDirty = false)
    {f : Unit → M α} {Q : α → Store → Prop} (hf : wlp (f ()) s Q) :
    wlp (cleanOps ev ops again >>= f) s Q := by
  refine wlp_bind ?_
  intro a s' e
  unfold cleanOps at e
  have hn : ¬ ops.any (fun a => (s.vars a).isDirty) = true := by
    rw [List.any_eq_true]
    rintro ⟨a, ha, hd⟩
    rw [h a ha] at hd; cases hd
  rw [if_neg hn] at e
  cases e
  exact hf

/-- Common end of the functions that create nodes. -/
theorem node_end {s1 s2 : Store} {k : Kind} {t : VType} {n r : Nat}
    {v : Var} (h : St s U u) (f : Frame (plus u s.sideEffects) s U s1 U)
    (hz : ∀ k, (s1.vars k).size = (s.vars k).size ∧ (s1.vars k).isDirty = (s.vars k).isDirty)
    (hal : ∀ k, Alive s U k → Alive s1 U k)
    (hv : v.kind = k ∧ v.type = t ∧ v.size = n ∧ v.writePtr = false) (hk : k ≠ .literal)
    {V : Nat → BitVec 64 → Prop}
    (hval : ∀ U2, Inv s2 U2 (plus (plus u s.sideEffects) [r]) (fun _ => 0) [] →
      Frame (plus u s.sideEffects) s U s2 U2 → (s2.vars r).key = (v.placed s1).key →
      ∀ l z, V l z → Val s2 r l z)
    (hp : ∃ U', Inv s2 U' (plus (plus u s.sideEffects) [r]) (fun _ => 0) [] ∧
      Frame (plus u s.sideEffects) s1 U s2 U' ∧ Alive s2 U' r ∧
      (s2.vars r).key = (v.placed s1).key ∧ WOK s2 ∧
      (s2.vars r).isDirty = false ∧ Keep s1 U s2) :
    Post s U u t n False V r s2 := by
  obtain ⟨U', a1, a2, a3, a4, a5, a6, a7⟩ := hp
  have f2 := f.trans a2
  refine ⟨U', ⟨IInv.of_frame a1 f2, a5⟩, f2.user, a3, ?_, ?_, a6, ?_, fun h => h.elim, ?_, ?_⟩
  · rw [← hv.2.1]; exact congrArg Key.type a4
  · rw [← hv.2.2.1]; exact congrArg Key.size a4
  · intro hl
    have : (s2.vars r).kind = v.kind := congrArg Key.kind a4
    rw [this, hv.1] at hl
    exact absurd hl hk
  · exact fun l z hz => hval U' a1 f2 a4 l z hz
  · refine .same fun k hk => ?_
    obtain ⟨b1, b2⟩ := a7 k (hal k (h.alive hk))
    exact ⟨b1.trans (hz k).1, fun e => b2 (by rw [(hz k).2]; exact e)⟩

/-- `newNode1` on operands without pending writes. -/
theorem node1_post (h : St s U u) {b : Nat} {k : Kind} {t : VType} {n : Nat} {sy : Bool} {a0 : Nat}
    {p : BitVec 64} (h0 : Operand s u a0) (hk : k ≠ .literal) (hk' : k ≠ .evaluated) :
    wlp (newNode1 ev b k t n sy a0 p) s (Post s U u t n False (fun l z => ∃ x, Val s a0 l x ∧
      sem1 k t (s.vars a0).type x = some z)) := by
  unfold newNode1
  refine wlp_clean (by simpa using h0.clean) ?_
  have al := h.alive h0.held
  refine wlp_bind (wlp_mono (incV h.inv al h.wok) ?_)
  rintro _ s1 ⟨i1, w1, f1, z1, se1, al1⟩
  have e : plus (plus u s.sideEffects) [a0, 0, 0, 0] = plus (plus u s.sideEffects) [a0] := by
    rw [plus4]; simp only [plus_zero1]
  refine wlp_mono (varNew_post (ext := plus u s.sideEffects) (U := U) rfl rfl rfl hk'
    (by change Inv s1 U (plus _ [a0, 0, 0, 0]) _ _; rw [e]; exact i1) w1) ?_
  intro r s2 hp
  refine node_end h (f1 _) z1 (fun k => (al1 k).2) ⟨rfl, rfl, rfl, rfl⟩ hk ?_ hp
  rintro U2 i2 f2 k2 l z ⟨x, hx, hs⟩
  obtain ⟨b1, b2, _, b4⟩ := held_keep h.inv i2 f2 (plus_pos_left h0.held) al
  have d0 : (s2.vars r).d0 = a0 := congrArg Key.d0 k2
  have ek : (s2.vars r).kind = k := congrArg Key.kind k2
  have et : (s2.vars r).type = t := congrArg Key.type k2
  refine Val.node1 (x := x) (congrArg Key.writePtr k2) (by rw [d0]; exact al.1)
    (by rw [d0]; exact b4 l x hx) ?_
  rw [d0, ek, et, (body_fields b2).2.1]; exact hs

theorem node2_post (h : St s U u) {b : Nat} {k : Kind} {t : VType} {n : Nat} {sy : Bool}
    {a0 a1 : Nat} {p : BitVec 64} (h0 : Operand s u a0) (h1 : Operand s u a1)
    (hk : k ≠ .literal) (hk' : k ≠ .evaluated) :
    wlp (newNode2 ev b k t n sy a0 a1 p) s (Post s U u t n False (fun l z => ∃ x y, Val s a0 l x ∧
      Val s a1 l y ∧ sem2 k t (s.vars a0).type (s.vars a1).type x y = some z)) := by
  unfold newNode2
  refine wlp_clean (by simp [h0.clean, h1.clean]) ?_
  have al0 := h.alive h0.held
  have al1 := h.alive h1.held
  refine wlp_bind (wlp_mono (incV h.inv al0 h.wok) ?_)
  rintro _ s1 ⟨i1, w1, f1, z1, se1, q1⟩
  refine wlp_bind (wlp_mono (incV i1 ((q1 _).2 al1) w1) ?_)
  rintro _ s2 ⟨i2, w2, f2, z2, se2, q2⟩
  have e : plus (plus u s.sideEffects) [a0, a1, 0, 0] =
      plus (plus (plus u s.sideEffects) [a0]) [a1] := by
    rw [plus4]; simp only [plus_zero1]; rw [plus_comm]
  refine wlp_mono (varNew_post (ext := plus u s.sideEffects) (U := U) rfl rfl rfl hk'
    (by change Inv s2 U (plus _ [a0, a1, 0, 0]) _ _; rw [e]; exact i2) w2) ?_
  intro r s3 hp
  refine node_end h ((f1 _).trans (f2 _)) (fun k => ⟨(z2 k).1.trans (z1 k).1,
    (z2 k).2.trans (z1 k).2⟩) (fun k e => (q2 k).2 ((q1 k).2 e)) ⟨rfl, rfl, rfl, rfl⟩ hk ?_ hp
  rintro U3 i3 f3 k3 l z ⟨x, y, hx, hy, hs⟩
  obtain ⟨b1, b2, _, b4⟩ := held_keep h.inv i3 f3 (plus_pos_left h0.held) al0
  obtain ⟨c1, c2, _, c4⟩ := held_keep h.inv i3 f3 (plus_pos_left h1.held) al1
  have d0 : (s3.vars r).d0 = a0 := congrArg Key.d0 k3
  have d1 : (s3.vars r).d1 = a1 := congrArg Key.d1 k3
  have ek : (s3.vars r).kind = k := congrArg Key.kind k3
  have et : (s3.vars r).type = t := congrArg Key.type k3
  refine Val.node2 (x := x) (y := y) (congrArg Key.writePtr k3) (by rw [d0]; exact al0.1)
    (by rw [d1]; exact al1.1) (by rw [d0]; exact b4 l x hx) (by rw [d1]; exact c4 l y hy) ?_
  rw [d0, d1, ek, et, (body_fields b2).2.1, (body_fields c2).2.1]; exact hs

theorem node3_post (h : St s U u) {b : Nat} {k : Kind} {t : VType} {n : Nat} {sy : Bool}
    {a0 a1 a2 : Nat} {p : BitVec 64} (h0 : Operand s u a0) (h1 : Operand s u a1)
    (h2 : Operand s u a2) (hk : k ≠ .literal) (hk' : k ≠ .evaluated) :
    wlp (newNode3 ev b k t n sy a0 a1 a2 p) s (Post s U u t n False (fun l z => ∃ x y w,
      Val s a0 l x ∧ Val s a1 l y ∧ Val s a2 l w ∧
      sem3 k t (s.vars a0).type (s.vars a1).type (s.vars a2).type x y w = some z)) := by
  unfold newNode3
  refine wlp_clean (by simp [h0.clean, h1.clean, h2.clean]) ?_
  have al0 := h.alive h0.held
  have al1 := h.alive h1.held
  have al2 := h.alive h2.held
  refine wlp_bind (wlp_mono (incV h.inv al0 h.wok) ?_)
  rintro _ s1 ⟨i1, w1, f1, z1, se1, q1⟩
  refine wlp_bind (wlp_mono (incV i1 ((q1 _).2 al1) w1) ?_)
  rintro _ s2 ⟨i2, w2, f2, z2, se2, q2⟩
  refine wlp_bind (wlp_mono (incV i2 ((q2 _).2 ((q1 _).2 al2)) w2) ?_)
  rintro _ s3 ⟨i3, w3, f3, z3, se3, q3⟩
  have e : plus (plus u s.sideEffects) [a0, a1, a2, 0] =
      plus (plus (plus (plus u s.sideEffects) [a0]) [a1]) [a2] := by
    funext k
    unfold plus
    split
    · rfl
    · rename_i h0
      simp only [List.count_cons, List.count_nil]
      simp only [beq_iff_eq, if_neg (fun e => h0 (Eq.symm e) : ¬ 0 = k)]
      omega
  refine wlp_mono (varNew_post (ext := plus u s.sideEffects) (U := U) rfl rfl rfl hk'
    (by change Inv s3 U (plus _ [a0, a1, a2, 0]) _ _; rw [e]; exact i3) w3) ?_
  intro r s4 hp
  refine node_end h (((f1 _).trans (f2 _)).trans (f3 _))
    (fun k => ⟨(z3 k).1.trans ((z2 k).1.trans (z1 k).1), (z3 k).2.trans ((z2 k).2.trans (z1 k).2)⟩)
    (fun k e => (q3 k).2 ((q2 k).2 ((q1 k).2 e))) ⟨rfl, rfl, rfl, rfl⟩ hk ?_ hp
  rintro U4 i4 f4 k4 l z ⟨x, y, w, hx, hy, hw, hs⟩
  obtain ⟨b1, b2, _, b4⟩ := held_keep h.inv i4 f4 (plus_pos_left h0.held) al0
  obtain ⟨c1, c2, _, c4⟩ := held_keep h.inv i4 f4 (plus_pos_left h1.held) al1
  obtain ⟨g1, g2, _, g4⟩ := held_keep h.inv i4 f4 (plus_pos_left h2.held) al2
  have d0 : (s4.vars r).d0 = a0 := congrArg Key.d0 k4
  have d1 : (s4.vars r).d1 = a1 := congrArg Key.d1 k4
  have d2 : (s4.vars r).d2 = a2 := congrArg Key.d2 k4
  have ek : (s4.vars r).kind = k := congrArg Key.kind k4
  have et : (s4.vars r).type = t := congrArg Key.type k4
  refine Val.node3 (x := x) (y := y) (w := w) (congrArg Key.writePtr k4) (by rw [d0]; exact al0.1)
    (by rw [d1]; exact al1.1) (by rw [d2]; exact al2.1) (by rw [d0]; exact b4 l x hx)
    (by rw [d1]; exact c4 l y hy) (by rw [d2]; exact g4 l w hw) ?_
  rw [d0, d1, d2, ek, et, (body_fields b2).2.1, (body_fields c2).2.1, (body_fields g2).2.1]
  exact hs

/-! ## Other steps -/

theorem wlp_getVar {i : Nat} {Q : Var → Store → Prop} (h : Q (s.vars i) s) :
    wlp (getVar i) s Q := by
  intro v s' e
  unfold getVar at e
  split at e <;> cases e
  exact h

theorem frame_body {P : List Nat} {extSe ext' : Nat → Nat} (h : Inv s U ext extSe P)
    (hf : Frame ext' s U s' U') {i : Nat} (hb : 0 < ext' i) (hi : Alive s U i) :
    Alive s' U' i ∧ (s'.vars i).body = (s.vars i).body := by
  obtain ⟨a, b⟩ := hf.stay i hb hi
  have hu : (s'.vars i).uid < s.variableCounter := by rw [b]; exact h.uids i hi
  exact ⟨a, (hf.keep i a hu).2.1⟩

theorem LitOK.body {v w : Var} (h : v.body = w.body) (hl : LitOK w) : LitOK v := by
  obtain ⟨e1, e2, e3, _⟩ := body_fields h
  unfold LitOK at *
  rw [e1, e2, e3]; exact hl

/-- Operands remain operands. -/
theorem Operand.keep (h : St s U u) {a : Nat} (h0 : Operand s u a) (hf : Frame u s U s' U')
    (hk : Keep s U s') {u' : Nat → Nat} (hu : 0 < u' a) : Operand s' u' a := by
  have al := h.alive h0.held
  obtain ⟨_, b⟩ := frame_body h.inv hf h0.held al
  exact ⟨hu, by rw [(hk a al).1]; exact h0.sized, (hk a al).2 h0.clean, h0.lit.body b⟩

/-- The result of an operation can be used as an operand. -/
theorem Post.operand {t : VType} {n : Nat} {lit : Prop} {V : Nat → BitVec 64 → Prop} {r : Nat}
    (h : Post s U u t n lit V r s') (hn : 0 < n) : Operand s' (plus u [r]) r := by
  obtain ⟨U', a1, a2, a3, a4, a5, a6, a7, a8, a9, a10⟩ := h
  exact ⟨by rw [plus_self a3.1]; omega, by rw [a5]; exact hn, a6, a7⟩

theorem plus_one_pos {d k : Nat} (h : 0 < plus u [d] k) : 0 < u k ∨ (k = d ∧ d ≠ 0) := by
  by_cases hk : k = d
  · by_cases hd : d = 0
    · rw [hd, plus_zero, plus_nil] at h; exact .inl h
    · exact .inr ⟨hk, hd⟩
  · rw [plus_ne hk] at h; exact .inl h

/-- Releasing a reference. -/
theorem decRef_post {d : Nat} (h : St s U (plus u [d])) :
    wlp (decRef d) s (fun _ s' => ∃ U', St s' U' u ∧ Frame u s U s' U' ∧ Raw s s' ∧
      ∀ i, (s.vars i).isDirty = false → (s'.vars i).isDirty = false) := by
  have h' : Inv s U (plus (plus u s.sideEffects) [d]) (fun _ => 0) [] := by
    rw [plus_comm]; exact h.inv
  refine wlp_mono (wlp_and raw_decRef (wlp_of_wp (decRef_spec (R := fun _ => True)
    (T := fun _ => True) h'))) ?_
  rintro _ s' ⟨r, U', a1, a2, _⟩
  refine ⟨U', ⟨?_, wok_frame h' a1 a2 r.1 h.wok⟩, a2.user, r, fun i => clean_frame h' a1 a2 r.1⟩
  unfold IInv
  rw [a2.side]; exact a1

/-- Releasing a temporary `d`, created before the operation. -/
theorem Post.finish {s0 : Store} {U0 : List Nat} {t : VType} {n d : Nat} {lit : Prop}
    {V : Nat → BitVec 64 → Prop} {r : Nat}
    (h : Post s U (plus u [d]) t n lit V r s') (hf : Frame u s0 U0 s U) (hh : Held s0 u n s)
    (hd : ∀ P, SizesIn P s0 u n → d ≠ 0 → P (s.vars d).size) :
    wlp (decRef d) s' (fun _ s'' => Post s0 U0 u t n lit V r s'') := by
  obtain ⟨U', a1, a2, a3, a4, a5, a6, a7, a8, a9, a10⟩ := h
  rw [plus_comm] at a1
  refine wlp_mono (decRef_post a1) ?_
  rintro _ s'' ⟨U'', b1, b2, b3, b4⟩
  have hr : 0 < plus u [r] r := by rw [plus_self a3.1]; omega
  obtain ⟨c1, c2, _, c4⟩ := held_keep a1.inv b1.inv b2 hr a3
  obtain ⟨e1, e2, _⟩ := body_fields c2
  refine ⟨U'', b1, ?_, c1, by rw [e2, a4], by rw [b3.2, a5], b4 r a6, a7.body c2,
    fun hl => by rw [e1]; exact a8 hl, fun l z hz => c4 l z (a9 l z hz), ?_⟩
  · exact hf.trans ((a2.mono (fun i hi => plus_pos_left hi)).trans
      (b2.mono (fun i hi => plus_pos_left hi)))
  · refine Held.trans (s' := s') ⟨fun k hk => ?_, fun k hk e => a10.clean k (plus_pos_left hk)
      (hh.clean k hk e), fun P hP => ?_⟩ (.same fun k _ => ⟨b3.2 k, b4 k⟩)
    · have q1 := hh.size k hk
      have q2 := a10.size k (plus_pos_left hk)
      omega
    · have q := a10.sizes P ⟨hP.1, fun k hk => by
        rcases plus_one_pos hk with e | ⟨rfl, e⟩
        · exact (hh.sizes P hP).2 k e
        · exact hd P hP e, hP.3⟩
      exact ⟨hP.1, fun k hk => q.2 k (plus_pos_left hk), hP.3⟩

/-- Releasing a temporary. -/
theorem Post.release {t : VType} {n d : Nat} {lit : Prop} {V : Nat → BitVec 64 → Prop} {r : Nat}
    (h : Post s U (plus u [d]) t n lit V r s')
    (hd : ∀ P, SizesIn P s u n → d ≠ 0 → P (s.vars d).size) :
    wlp (decRef d) s' (fun _ s'' => Post s U u t n lit V r s'') :=
  h.finish Frame.refl Held.refl hd

/-- Steps before an operation. -/
theorem Post.before {s0 : Store} {U0 : List Nat} {t : VType} {n : Nat} {lit : Prop}
    {V : Nat → BitVec 64 → Prop} {r : Nat} (hf : Frame u s0 U0 s U)
    (h : Post s U u t n lit V r s') (hh : Held s0 u n s) : Post s0 U0 u t n lit V r s' := by
  obtain ⟨U', a1, a2, a3, a4, a5, a6, a7, a8, a9, a10⟩ := h
  exact ⟨U', a1, hf.trans a2, a3, a4, a5, a6, a7, a8, a9, hh.trans a10⟩

theorem Post.frame {t : VType} {n : Nat} {lit : Prop}
    {V : Nat → BitVec 64 → Prop} {r : Nat}
    (h : Post s U u t n lit V r s') : ∃ U', Frame u s U s' U' := ⟨_, h.choose_spec.2.1⟩

/-- Returning an operand. -/
theorem inc_post (h : St s U u) {i : Nat} (h0 : Operand s u i) :
    wlp (do incRefV i; pure i) s (Post s U u (s.vars i).type (s.vars i).size
      ((s.vars i).kind = .literal) (fun l z => Val s i l z)) := by
  have al := h.alive h0.held
  refine wlp_bind ?_
  intro a s' e
  obtain ⟨a1, rfl⟩ := wp_ok (incRefV_spec h.inv al (R := fun _ => True)) e
  refine wlp_pure ?_
  have f : Frame (plus u s.sideEffects) s U
      (s.set i { s.vars i with refCount := (s.vars i).refCount + 1 }) U := Frame.setCounts
  obtain ⟨b1, b2, _, b4⟩ := held_keep h.inv a1 f (plus_pos_left h0.held) al
  obtain ⟨e1, e2, _⟩ := body_fields b2
  refine ⟨U, ⟨IInv.of_frame a1 f, wok_inc h.wok _ _⟩, f.user, al, e2, ?_, ?_, h0.lit.body b2,
    fun hl => by rw [e1, hl], b4, ?_⟩
  · rw [set_self]
  · rw [set_self]; exact h0.clean
  · refine .same fun k _ => ?_
    by_cases hk : k = i
    · subst hk; rw [set_self]; exact ⟨rfl, id⟩
    · rw [set_ne _ _ hk]; exact ⟨rfl, id⟩

theorem wlp_incRef {i : Nat} {Q : Unit → Store → Prop} (hi : i ≠ 0) (h : wlp (incRefV i) s Q) :
    wlp (incRef i) s Q := by
  unfold incRef
  rw [if_neg hi]
  refine wlp_bind (wlp_getVar ?_)
  exact h

theorem inc_post' (h : St s U u) {i : Nat} (h0 : Operand s u i) :
    wlp (do incRef i; pure i) s (Post s U u (s.vars i).type (s.vars i).size
      ((s.vars i).kind = .literal) (fun l z => Val s i l z)) := by
  refine wlp_bind (wlp_incRef (h.alive h0.held).1 ?_)
  have := inc_post h h0
  intro a s' e b s'' e'
  refine this b s'' ?_
  change (incRefV i >>= fun _ => pure i) s = _
  simp only [bind, e]
  exact e'

/-- `varResize` on operands without pending writes. -/
theorem resize_post (h : St s U u) {i n : Nat} (h0 : Operand s u i) (hn : 0 < n)
    (hle : (s.vars i).size ≤ n) :
    wlp (varResize ev i n) s (Post s U u (s.vars i).type n ((s.vars i).kind = .literal)
      (fun l z => Val s i l z)) := by
  have al := h.alive h0.held
  unfold varResize
  refine wlp_ite (fun e => absurd e.1 al.1) (fun _ => ?_)
  refine wlp_ite (fun _ => wlp_raise) (fun _ => ?_)
  refine wlp_bind (wlp_getVar ?_)
  refine wlp_ite (fun _ => wlp_raise) (fun _ => ?_)
  refine wlp_ite (fun e => ?_) (fun _ => ?_)
  · rw [← e]; exact inc_post h h0
  refine wlp_ite (fun _ => wlp_raise) (fun _ => ?_)
  refine wlp_clean (by simpa using h0.clean) ?_
  refine wlp_bind (wlp_getVar ?_)
  refine wlp_ite (fun hc => ?_) (fun _ => ?_)
  · -- in place
    refine wlp_bind ?_
    intro a s1 e
    obtain ⟨a1, e1⟩ := wp_ok (incRefV_spec h.inv al (R := fun _ => True)) e
    have f1 : Frame (plus u s.sideEffects) s U s1 U := by rw [e1]; exact Frame.setCounts
    have w1 : WOK s1 := by rw [e1]; exact wok_inc h.wok _ _
    have v1 : s1.vars i = { s.vars i with refCount := (s.vars i).refCount + 1 } := by
      rw [e1, set_self]
    have hk : (s1.vars i).kind ≠ .evaluated := by
      rw [v1]
      simpa [Var.isEvaluated] using hc.1
    obtain ⟨s2, e2, b1, b2, b3⟩ := resize_inPlace (base := plus u s.sideEffects) (n := n) a1
      (by rw [e1]; exact al) hk (by
        rw [v1, plus_self al.1]
        have := plus_pos_left (l := s.sideEffects) h0.held
        have := hc.2
        dsimp only
        omega)
    refine wlp_bind (wlp_modify ?_)
    refine wlp_bind (wlp_modify ?_)
    refine wlp_bind (wlp_modify ?_)
    refine wlp_pure ?_
    have e2' : s2 = ((s1.lvnDrop i).set i { (s1.lvnDrop i).vars i with size := n }).lvnPut i := e2
    rw [← e2']
    have f2 := f1.trans b2
    have hvc : s2.variableCounter = s1.variableCounter := by
      rw [e2']
      have q := (raw_lvnDrop (s := s1) i).1.1
      unfold Store.lvnPut
      split <;> exact q
    obtain ⟨c1, c2, _, c4⟩ := held_keep h.inv b1 f2 (plus_pos_left h0.held) al
    obtain ⟨g1, g2, _⟩ := body_fields c2
    refine ⟨U, ⟨IInv.of_frame b1 f2, wok_frame a1 b1 b2 hvc w1⟩, f2.user, c1, g2, by rw [b3], ?_,
      h0.lit.body c2, fun hl => by rw [g1, hl], c4, ?_⟩
    · rw [b3, v1]; exact h0.clean
    · have hne : ∀ k, k ≠ i → s2.vars k = s.vars k := by
        intro k hk
        have q : (s1.lvnDrop i).vars = s1.vars := (raw_lvnDrop (s := s1) i).2
        have q2 : s2.vars k = s1.vars k := by
          rw [e2']
          unfold Store.lvnPut
          split <;> exact (set_ne _ _ hk).trans (congrFun q k)
        rw [q2, e1, set_ne _ _ hk]
      refine ⟨fun k _ => ?_, fun k _ => ?_, fun P hP => ⟨hP.1, fun k hk' => ?_, hP.3⟩⟩
      · by_cases hk : k = i
        · subst hk
          rw [b3]
          exact .inr ⟨hle, le_refl _⟩
        · rw [hne k hk]; exact .inl rfl
      · by_cases hk : k = i
        · subst hk
          rw [b3, v1]; exact id
        · rw [hne k hk]; exact id
      · by_cases hk : k = i
        · subst hk
          rw [b3]; exact hP.1
        · rw [hne k hk]; exact hP.2 k hk'
  refine wlp_ite (fun hl => ?_) (fun hl => ?_)
  · have hk : (s.vars i).kind = .literal := by simpa [Var.isLiteral] using hl
    refine wlp_mono (literal_post h hn (fun ht => ?_)) ?_
    · have := h0.lit hk
      rw [ht] at this; exact this
    · rintro r s' ⟨p, _⟩
      exact p.mono (fun _ => trivial) (fun l z hz => hz.literal_inv hk)
  · have hk : (s.vars i).kind ≠ .literal := by simpa [Var.isLiteral] using hl
    refine wlp_bind (wlp_mono (incV h.inv al h.wok) ?_)
    rintro _ s1 ⟨i1, w1, f1, z1, se1, al1⟩
    have e : plus (plus u s.sideEffects) [i, 0, 0, 0] = plus (plus u s.sideEffects) [i] := by
      rw [plus4]; simp only [plus_zero1]
    refine wlp_mono (varNew_post (ext := plus u s.sideEffects) (U := U) rfl rfl rfl
      (fun e => nomatch e) (by change Inv s1 U (plus _ [i, 0, 0, 0]) _ _; rw [e]; exact i1) w1) ?_
    intro r s2 hp
    refine Post.mono (node_end (k := .bitcast) h (f1 _) z1 (fun k => (al1 k).2) ⟨rfl, rfl, rfl, rfl⟩ (fun e => nomatch e)
      ?_ hp) (fun e => hk e) (fun _ _ => id)
    intro U2 i2 f2 k2 l z hz
    obtain ⟨b1, b2, _, b4⟩ := held_keep h.inv i2 f2 (plus_pos_left h0.held) al
    have d0 : (s2.vars r).d0 = i := congrArg Key.d0 k2
    have ek : (s2.vars r).kind = .bitcast := congrArg Key.kind k2
    have et : (s2.vars r).type = (s.vars i).type := congrArg Key.type k2
    refine Val.node1 (x := z) (congrArg Key.writePtr k2) (by rw [d0]; exact al.1)
      (by rw [d0]; exact b4 l z hz) ?_
    rw [d0, ek, et, (body_fields b2).2.1]
    change (if (s.vars i).type.bits = (s.vars i).type.bits then some _ else none) = _
    rw [if_pos rfl]
    exact congrArg some hz.norm

/-! ## Operand checks -/

/-- What the checks report. -/
structure InfoOK (s : Store) (deps : List Nat) (info : OpInfo) : Prop where
  size : info.size = (deps.map (fun d => (s.vars d).size)).foldl max 0
  literal : info.literal = true ↔ ∀ d ∈ deps, (s.vars d).kind = .literal
  simplify : s.constProp = true → info.literal = true → info.simplify = true
  enabled : info.simplify = true → s.constProp = true
  type : ∀ d l, deps = d :: l → info.type = (s.vars d).type
  sizes : ∀ d ∈ deps, (s.vars d).size = 1 ∨ (s.vars d).size = info.size

theorem checkLoop_post (deps : List Nat) (h0 : ∀ d ∈ deps, d ≠ 0 ∧ (s.vars d).type ≠ .void) :
    ∀ i : OpInfo, wlp (checkLoop deps i) s (fun info s' => s' = s ∧
      info.size = (deps.map (fun d => (s.vars d).size)).foldl max i.size ∧
      (info.literal = true ↔ i.literal = true ∧ ∀ d ∈ deps, (s.vars d).kind = .literal) ∧
      (info.simplify = true ↔ i.simplify = true ∨ ∃ d ∈ deps, (s.vars d).kind = .literal) ∧
      (i.type ≠ .void → info.type = i.type) ∧
      (i.type = .void → ∀ d l, deps = d :: l → info.type = (s.vars d).type)) := by
  induction deps with
  | nil =>
    intro i
    refine wlp_pure ⟨rfl, rfl, ?_, ?_, fun _ => rfl, fun _ d l e => by cases e⟩
    · simp
    · simp
  | cons d l ih =>
    intro i
    obtain ⟨hd, ht⟩ := h0 d (by simp)
    unfold checkLoop
    rw [if_neg hd]
    refine wlp_bind (wlp_getVar ?_)
    refine wlp_ite (fun _ => wlp_raise) (fun _ => ?_)
    refine wlp_mono (ih (fun d hd => h0 d (by simp [hd])) _) ?_
    rintro info s' ⟨e1, e2, e3, e4, e5, e6⟩
    dsimp only at e2 e3 e4 e5 e6
    refine ⟨e1, e2, ?_, ?_, ?_, ?_⟩
    · rw [e3]
      simp only [Bool.and_eq_true, Var.isLiteral, beq_iff_eq, List.mem_cons, forall_eq_or_imp,
        and_assoc]
    · rw [e4]
      simp only [Bool.or_eq_true, Var.isLiteral, beq_iff_eq, List.mem_cons, exists_eq_or_imp,
        or_assoc]
    · intro hv
      rw [e5 (by rw [if_neg hv]; exact hv), if_neg hv]
    · intro hv d' l' e
      cases e
      rw [if_pos hv] at e5
      exact e5 ht

theorem check_post (h : St s U u) {deps : List Nat} (hne : deps ≠ [])
    (h0 : ∀ d ∈ deps, Operand s u d ∧ (s.vars d).type ≠ .void) :
    wlp (varCheck deps) s (fun info s' => s' = s ∧ InfoOK s deps info ∧ 0 < info.size) := by
  unfold varCheck
  refine wlp_bind (wlp_mono (checkLoop_post deps
    (fun d hd => ⟨(h.alive (h0 d hd).1.held).1, (h0 d hd).2⟩) {}) ?_)
  rintro i s' ⟨rfl, e2, e3, e4, _, e6⟩
  refine wlp_bind (wlp_getStore ?_)
  have pos : 0 < i.size := by
    rw [e2]
    have mono : ∀ (l : List Nat) (a b : Nat), a ≤ b → a ≤ l.foldl max b := by
      intro l
      induction l with
      | nil => intro a b hab; exact hab
      | cons x l ih => intro a b hab; exact ih a _ (by omega)
    cases deps with
    | nil => exact absurd rfl hne
    | cons d l =>
      have := (h0 d (by simp)).1.sized
      exact Nat.lt_of_lt_of_le this (mono (l.map (fun d => (s'.vars d).size)) _
        (max 0 (s'.vars d).size) (Nat.le_max_right 0 _))
  refine wlp_ite (fun _ => ?_) (fun hn => absurd pos hn)
  refine wlp_ite (fun _ => wlp_raise) (fun hs => ?_)
  refine wlp_pure ⟨rfl, ⟨e2, ?_, ?_, ?_, e6 rfl, ?_⟩, pos⟩
  · rw [e3]; simp
  · intro hc hl
    have hl' : i.literal = true := hl
    rw [e3] at hl'
    have : i.simplify = true := by
      rw [e4]
      cases deps with
      | nil => exact absurd rfl hne
      | cons d l => exact .inr ⟨d, by simp, hl'.2 d (by simp)⟩
    simp [this, hc]
  · intro hc
    simp only [Bool.and_eq_true] at hc
    exact hc.2
  · intro d hd
    have d0 := (h.alive (h0 d hd).1.held).1
    by_contra hn
    refine hs (List.any_eq_true.2 ⟨d, hd, ?_⟩)
    simp only [if_neg d0]
    simpa [and_comm] using hn

end Verif.Ops
