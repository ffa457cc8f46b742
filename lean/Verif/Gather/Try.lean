import Verif.Gather.Reindex
/-!
# The attempt to reindex the source of a gather
-/
namespace Verif.Gather
open Verif.Var Verif.Ops

variable {s s' : Store} {U U' : List Nat} {u u' ext base : Nat → Nat} {ev : M Unit}
variable {src : Nat}

/-- Steps keep the nodes of an expression held by the caller. -/
theorem part_back (h : St s U u) (hs : 0 < u src) (ht : Typed s src) (h' : St s' U' u')
    (hf : Frame u s U s' U') {k : Nat} (hp : Part s' src k) : Part s src k := by
  induction hp with
  | root => exact .root
  | @dep k j _ hk hj hd ih =>
    have sm := (part_same h hs ht h' hf ih).2.2.2
    rw [body_dep sm.body j] at hd ⊢
    rw [sm.kind] at hk
    exact .dep ih hk hj hd

theorem typed_next (h : St s U u) (hs : 0 < u src) (ht : Typed s src) (h' : St s' U' u')
    (hf : Frame u s U s' U') : Typed s' src := by
  have sm : ∀ k, Part s' src k → Part s src k ∧ Same s s' k := fun k hp =>
    ⟨part_back h hs ht h' hf hp, (part_same h hs ht h' hf (part_back h hs ht h' hf hp)).2.2.2⟩
  refine ⟨fun k hp => ?_, fun k hp hk => ?_, fun k hp hk => ?_, fun k hp hk => ?_, fun k hp hk h2 => ?_,
    fun k hp c => ?_, fun k hp hk => ?_⟩
  · exact (ht.lit k (sm k hp).1).body (sm k hp).2.body
  · rw [(sm k hp).2.kind] at hk
    rw [(body_fields (sm k hp).2.body).2.2.2.2.2.2.2]
    exact ht.read k (sm k hp).1 hk
  · rw [(sm k hp).2.kind] at hk
    rw [(sm k hp).2.type]
    exact ht.counter k (sm k hp).1 hk
  · rw [(sm k hp).2.kind] at hk
    rw [(sm k hp).2.type]
    exact ht.dmask k (sm k hp).1 hk
  · rw [(sm k hp).2.kind] at hk
    rw [(body_fields (sm k hp).2.body).2.2.2.2.2.1] at h2 ⊢
    have hp2 : Part s src (s.vars k).d2 := .dep (j := 2) (sm k hp).1 (by rw [hk]; decide) (by omega) h2
    rw [(part_same h hs ht h' hf hp2).2.2.2.type]
    exact ht.gather k (sm k hp).1 hk h2
  · rw [(sm k hp).2.kind]
    exact ht.pure k (sm k hp).1 c
  · rw [(sm k hp).2.kind] at hk
    rw [(body_fields (sm k hp).2.body).2.2.2.1]
    exact ht.leaf k (sm k hp).1 hk

theorem total_next (h : St s U u) (hs : 0 < u src) (ht : Typed s src) (h' : St s' U' u')
    (hf : Frame u s U s' U') {k : Nat} (hp : Part s src k) (hT : Total s k) : Total s' k := by
  have sm : ∀ k, Part s src k → Same s s' k := fun k hp => (part_same h hs ht h' hf hp).2.2.2
  induction hT with
  | literal e => exact .literal (by rw [(sm _ hp).kind, e])
  | counter e => exact .counter (by rw [(sm _ hp).kind, e])
  | defaultMask e => exact .defaultMask (by rw [(sm _ hp).kind, e])
  | evaluated e => exact .evaluated (by rw [(sm _ hp).kind, e])
  | @gather i e ew e0 e1 e2 el t1 t2 i1 i2 =>
    obtain ⟨b1, b2, b3, b4, b5, b6, b7, b8⟩ := body_fields (sm _ hp).body
    have hl : (s.vars i).kind ≠ .literal := by rw [e]; decide
    have p0 : Part s src (s.vars i).d0 := .dep (j := 0) hp hl (by omega) e0
    have p1 : Part s src (s.vars i).d1 := .dep (j := 1) hp hl (by omega) e1
    have p2 : Part s src (s.vars i).d2 := .dep (j := 2) hp hl (by omega) e2
    refine .gather (by rw [b1, e]) (by rw [b8, ew]) (by rw [b4]; exact e0) (by rw [b5]; exact e1)
      (by rw [b6]; exact e2) (by rw [b4, (sm _ p0).kind, el]) (by rw [b5]; exact i1 p1)
      (by rw [b6]; exact i2 p2)
  | @node1 i ew e0 t0 hz i0 =>
    by_cases hl : (s.vars i).kind = .literal
    · exact .literal (by rw [(sm _ hp).kind, hl])
    obtain ⟨b1, b2, b3, b4, b5, b6, b7, b8⟩ := body_fields (sm _ hp).body
    have p0 : Part s src (s.vars i).d0 := .dep (j := 0) hp hl (by omega) e0
    refine .node1 (by rw [b8, ew]) (by rw [b4]; exact e0) (by rw [b4]; exact i0 p0) ?_
    rw [b4, b1, b2, (sm _ p0).type]
    exact hz
  | @node2 i ew e0 e1 t0 t1 hz i0 i1 =>
    by_cases hl : (s.vars i).kind = .literal
    · exact .literal (by rw [(sm _ hp).kind, hl])
    obtain ⟨b1, b2, b3, b4, b5, b6, b7, b8⟩ := body_fields (sm _ hp).body
    have p0 : Part s src (s.vars i).d0 := .dep (j := 0) hp hl (by omega) e0
    have p1 : Part s src (s.vars i).d1 := .dep (j := 1) hp hl (by omega) e1
    refine .node2 (by rw [b8, ew]) (by rw [b4]; exact e0) (by rw [b5]; exact e1)
      (by rw [b4]; exact i0 p0) (by rw [b5]; exact i1 p1) ?_
    rw [b4, b5, b1, b2, (sm _ p0).type, (sm _ p1).type]
    exact hz
  | @node3 i ew e0 e1 e2 t0 t1 t2 hz i0 i1 i2 =>
    by_cases hl : (s.vars i).kind = .literal
    · exact .literal (by rw [(sm _ hp).kind, hl])
    obtain ⟨b1, b2, b3, b4, b5, b6, b7, b8⟩ := body_fields (sm _ hp).body
    have p0 : Part s src (s.vars i).d0 := .dep (j := 0) hp hl (by omega) e0
    have p1 : Part s src (s.vars i).d1 := .dep (j := 1) hp hl (by omega) e1
    have p2 : Part s src (s.vars i).d2 := .dep (j := 2) hp hl (by omega) e2
    refine .node3 (by rw [b8, ew]) (by rw [b4]; exact e0) (by rw [b5]; exact e1)
      (by rw [b6]; exact e2) (by rw [b4]; exact i0 p0) (by rw [b5]; exact i1 p1)
      (by rw [b6]; exact i2 p2) ?_
    rw [b4, b5, b6, b1, b2, (sm _ p0).type, (sm _ p1).type, (sm _ p2).type]
    exact hz

/-- `varCast` does not change sizes. -/
theorem cast_sizes (h : St s U u) {a0 : Nat} {Q : Nat → Prop} {target : VType} {re : Bool} (h0 : Operand s u a0)
    (hv : (s.vars a0).type ≠ .void) : wlp (varCast ev a0 target re) s (fun _ s' => Sizes Q s U s') := by
  have al := h.alive h0.held
  unfold varCast
  rw [if_neg al.1]
  refine wlp_bind (wlp_mono (check_post h (by simp) (by simpa using ⟨h0, hv⟩)) ?_)
  rintro info s' ⟨rfl, ho, hn⟩
  refine wlp_bind (wlp_getStore ?_)
  dsimp only
  refine wlp_ite (fun _ => wlp_raise) (fun hr => ?_)
  have tail : ∀ {c : Prop} [Decidable c] {i : OpInfo} {k : Kind} {r : Nat} {s1 : Store}, r ≠ 0 → Sizes Q s' U s1 →
      wlp (if r = 0 ∧ c then stop .unmodelled else finish1 ev i k a0 r) s1 (fun _ s2 => Sizes Q s' U s2) := by
    intro c _ i k r s1 hr q
    rw [if_neg (fun e => hr e.1)]
    unfold finish1
    rw [if_pos (.inl hr)]
    exact wlp_pure q
  have tail0 : ∀ {c : Prop} [Decidable c] {i : OpInfo} {k : Kind}, k ≠ .evaluated →
      wlp (if 0 = 0 ∧ c then stop .unmodelled else finish1 ev i k a0 0) s' (fun _ s2 => Sizes Q s' U s2) := by
    intro c _ i k hk
    refine wlp_ite (fun _ => wlp_stop) (fun _ => ?_)
    unfold finish1
    refine wlp_ite (fun _ => wlp_pure fun k _ => .inl rfl) (fun _ => ?_)
    refine wlp_ite (fun _ => wlp_stop) (fun _ => ?_)
    exact node1_sizes h h0 hk
  refine wlp_ite (fun hs => ?_) (fun _ => ?_)
  · refine wlp_bind (wlp_bind (wlp_mono (inc_any (Q := Q) (P := fun _ => False) h (.inr al)) ?_))
    rintro _ s1 ⟨_, _, a3, _⟩
    exact wlp_pure (tail al.1 fun k _ => .inl (a3 k))
  refine wlp_ite (fun _ => ?_) (fun _ => ?_)
  · refine wlp_ite (fun _ => ?_) (fun _ => ?_)
    · exact wlp_bind (wlp_mono (varLiteral_keep h) fun r s1 hk => tail (hk.1 hn) (keep_sizes hk.2))
    · refine wlp_bind ?_
      generalize evalCast _ _ _ = f
      cases f with
      | val x => exact wlp_mono (varLiteral_keep h) fun r s1 hk => tail (hk.1 hn) (keep_sizes hk.2)
      | ub => exact wlp_stop
      | fail => exact wlp_abort
      | unmodelled => exact wlp_stop
  · have : ∀ b : Bool, (if b = true then Kind.bitcast else .cast) ≠ .evaluated := by decide
    exact wlp_bind (wlp_pure (tail0 (this _)))

/-- `varResize` to a smaller size, for a variable with several references. -/
theorem resize_big {Q : Nat → Prop} (h : St s U u) {i n : Nat} (h0 : Operand s u i) (hn : 0 < n)
    (hlt : n < (s.vars i).size) (h2 : 2 ≤ u i) :
    wlp (varResize ev i n) s (fun t s' => Post s U u (s.vars i).type n ((s.vars i).kind = .literal)
      (fun l z => Val s i l z) t s' ∧ Sizes Q s U s') := by
  have al := h.alive h0.held
  unfold varResize
  refine wlp_ite (fun e => absurd e.1 al.1) (fun _ => ?_)
  refine wlp_ite (fun _ => wlp_raise) (fun _ => ?_)
  refine wlp_bind (wlp_getVar ?_)
  refine wlp_ite (fun _ => wlp_raise) (fun _ => ?_)
  refine wlp_ite (fun e => by omega) (fun _ => ?_)
  refine wlp_ite (fun _ => wlp_raise) (fun hl => ?_)
  refine wlp_clean (by simpa using h0.clean) ?_
  refine wlp_bind (wlp_getVar ?_)
  have hk : (s.vars i).isLiteral = true := by
    by_contra hh
    exact hl ⟨by omega, by simpa using hh⟩
  refine wlp_ite (fun hc => ?_) (fun _ => ?_)
  · have := h.inv.rc i al
    rw [hc.2] at this
    have : u i ≤ plus u s.sideEffects i := by unfold plus; split <;> omega
    omega
  rw [if_pos hk]
  have hk : (s.vars i).kind = .literal := by simpa [Var.isLiteral] using hk
  refine wlp_mono (literal_post h hn (fun ht => ?_)) ?_
  · have := h0.lit hk
    rw [ht] at this; exact this
  · rintro r s' ⟨p, _, _, hk'⟩
    exact ⟨p.mono (fun _ => trivial) (fun l z hz => hz.literal_inv hk), keep_sizes hk'⟩

/-- A new variable `r` of the given type, size and values, in addition to the references `w`. -/
structure GAt (Q : Nat → Prop) (s : Store) (U : List Nat) (base w : Nat → Nat) (t : VType) (n : Nat)
    (V : Nat → BitVec 64 → Prop) (r : Nat) (s' : Store) (U' : List Nat) : Prop where
  st : St s' U' (plus w [r])
  evo : Evo Q (fun _ => False) base s U s' U'
  ne : r ≠ 0
  type : (s'.vars r).type = t
  size : (s'.vars r).size = n
  clean : (s'.vars r).isDirty = false
  lit : LitOK (s'.vars r)
  val : ∀ l z, V l z → Val s' r l z

section
variable {n r : Nat} {Q : Nat → Prop} {w : Nat → Nat} {t : VType} {V V' : Nat → BitVec 64 → Prop}

theorem GAt.mono (g : GAt Q s U base w t n V r s' U') (hV : ∀ l z, V' l z → V l z) :
    GAt Q s U base w t n V' r s' U' :=
  ⟨g.st, g.evo, g.ne, g.type, g.size, g.clean, g.lit, fun l z h => g.val l z (hV l z h)⟩

theorem GAt.drop {d : Nat} (g : GAt Q s U base (plus w [d]) t n V r s' U')
    (hb : ∀ k, 0 < base k → 0 < w k) :
    wlp (decRef d) s' (fun _ s1 => ∃ U1, GAt Q s U base w t n V r s1 U1) := by
  have st : St s' U' (plus (plus w [r]) [d]) := by rw [plus_comm]; exact g.st
  refine wlp_mono (decRef_post st) ?_
  rintro _ s1 ⟨U1, b1, b2, b3, b4⟩
  have hr : 0 < plus w [r] r := by rw [plus_self g.ne]; omega
  have al : Alive s' U' r := st.alive (plus_pos_left hr)
  obtain ⟨_, sm⟩ := same_of st b1 b2 hr al
  refine ⟨U1, b1, g.evo.trans ((Evo.raw b2 b3 b4).mono fun k hk => plus_pos_left (hb k hk)), g.ne,
    by rw [sm.type, g.type], by rw [b3.2, g.size], b4 r g.clean, g.lit.body sm.body,
    fun l z h => sm.val l z (g.val l z h)⟩

theorem PostAt.gat {lit : Prop} (p : PostAt s U u t n lit V r s' U')
    (hS : ∀ k, 0 < u k → SizeOK Q s s' k) : GAt Q s U u u t n V r s' U' :=
  ⟨p.st, p.evo (fun k hk => hS k (hk.resolve_right id)), p.alive.1, p.type, p.size, p.clean, p.litOK, fun _ _ => p.val⟩
end

/-- Destructor of the map, with the result of the function. -/
theorem dropMemo_gat {n r : Nat} {Q : Nat → Prop} {w : Nat → Nat} {t : VType} {V : Nat → BitVec 64 → Prop}
    (hb : ∀ k, 0 < base k → 0 < w k) : ∀ (m : Memo) {s' : Store} {U' : List Nat},
    GAt Q s U base (plus w (m.map Prod.snd)) t n V r s' U' →
    wlp (dropMemo m) s' (fun _ s1 => ∃ U1, GAt Q s U base w t n V r s1 U1)
  | [], s', U', g => wlp_pure ⟨U', by rw [List.map_nil, plus_nil] at g; exact g⟩
  | p :: l, s', U', g => by
    have e : plus w ((p :: l).map Prod.snd) = plus (plus w (l.map Prod.snd)) [p.2] := by
      rw [List.map_cons, plus_cons]
    rw [e] at g
    refine wlp_bind (wlp_mono (g.drop fun k hk => plus_pos_left (hb k hk)) ?_)
    rintro _ s1 ⟨U1, g1⟩
    exact dropMemo_gat hb l g1

/-- Destructor of the map. -/
theorem dropMemo_post {Q P : Nat → Prop} : ∀ (m : Memo) {s : Store} {U : List Nat},
    St s U (plus u (m.map Prod.snd)) →
    wlp (dropMemo m) s (fun _ s' => ∃ U', St s' U' u ∧ Evo Q P u s U s' U')
  | [], s, U, h => wlp_pure ⟨U, by rw [List.map_nil, plus_nil] at h; exact h, .refl⟩
  | p :: l, s, U, h => by
    have e : plus u ((p :: l).map Prod.snd) = plus (plus u (l.map Prod.snd)) [p.2] := by
      rw [List.map_cons, plus_cons]
    rw [e] at h
    refine wlp_bind (wlp_mono (decRef_post h) ?_)
    rintro _ s1 ⟨U1, b1, b2, b3, b4⟩
    refine wlp_mono (dropMemo_post (Q := Q) (P := P) l b1) ?_
    rintro _ s2 ⟨U2, c1, c2⟩
    exact ⟨U2, c1, ((Evo.raw b2 b3 b4).mono fun k hk => plus_pos_left hk).trans c2⟩

/-- Lane `l` of the mask after the mask at the top of the stack was applied. -/
def MaskVal (s : Store) (stack : List Nat) (mask n l : Nat) (m : BitVec 64) : Prop :=
  ∃ y, Val s mask l y ∧ (usable s stack n = 0 → m = y) ∧
    (usable s stack n ≠ 0 → ∃ w, Val s (usable s stack n) l w ∧ m = masked y w)

/-- Lane `l` of the index, as an unsigned 32 bit number. -/
def IdxVal (s : Store) (idx l : Nat) (X : BitVec 64) : Prop := V1 s .cast .u32 idx l X

/-- The values of a gather: where the mask is set, the entry of the source at the index; elsewhere 0, if
all operations of the source are defined everywhere. -/
def TryVal (s : Store) (stack : List Nat) (src idx mask n l : Nat) (z : BitVec 64) : Prop :=
  ∃ X m, IdxVal s idx l X ∧ MaskVal s stack mask n l m ∧
    ((m = 1#64 ∧ Val s src X.toNat z) ∨ (m = 0#64 ∧ Total s src ∧ z = 0#64))

/-- Assumptions about the operands of a gather. -/
structure GIn (s : Store) (U : List Nat) (u : Nat → Nat) (stack : List Nat) (src idx mask n : Nat) : Prop where
  st : St s U u
  osrc : Operand s u src
  stype : Scalar (s.vars src).type
  typed : Typed s src
  oidx : Operand s u idx
  itype : (s.vars idx).type.isInt = true
  isize : (s.vars idx).size = 1 ∨ (s.vars idx).size = n
  omask : Operand s u mask
  mtype : (s.vars mask).type = .bool
  msize : (s.vars mask).size = 1 ∨ (s.vars mask).size = n
  ostack : StackOK s u stack
  pos : 0 < n

theorem usable_eq {stack : List Nat} {n : Nat} (h : ∀ t, stack.head? = some t → (s'.vars t).size = (s.vars t).size) :
    usable s' stack n = usable s stack n := by
  unfold usable
  cases stack with
  | nil => rfl
  | cons t l => dsimp only; rw [h t rfl]

/-- The size of the mask. -/
theorem applySize_pos {stack : List Nat} {src idx mask n : Nat} (g : GIn s U u stack src idx mask n) :
    0 < applySize s stack mask n := by
  have := g.omask.sized
  have := g.pos
  unfold applySize
  split <;> omega

theorem scalar_ne {t : VType} (h : Scalar t) : t ≠ .void := by
  rintro rfl
  rcases h with h | h | h <;> cases h

/-- Sizes that occur in a gather of size `n` whose mask has size at most `N`. -/
def GSize (n N m : Nat) : Prop := m = 1 ∨ m = n ∨ m = N

/-- The size of the mask at the top of the stack. -/
theorem usable_size {stack : List Nat} {n : Nat} (h : usable s stack n ≠ 0) :
    n = 1 ∨ (s.vars (usable s stack n)).size = 1 ∨ (s.vars (usable s stack n)).size = n := by
  cases stack with
  | nil => exact absurd rfl h
  | cons t l =>
    unfold usable at h ⊢
    dsimp only at h ⊢
    by_cases hc : n = 1 ∨ (s.vars t).size = 1 ∨ (s.vars t).size = n
    · rw [if_pos hc]; exact hc
    · rw [if_neg hc] at h; exact absurd rfl h

theorem gsize_mem {stack : List Nat} {src idx mask n N : Nat} (g : GIn s U u stack src idx mask n)
    (hN : N = max n (applySize s stack mask n)) :
    GSize n N (applySize s stack mask n) ∧ (n ≠ 1 → N = n) ∧
      (usable s stack n ≠ 0 → GSize n N (s.vars (usable s stack n)).size) := by
  unfold applySize at *
  have := g.omask.sized
  have := g.pos
  have := g.msize
  unfold GSize
  by_cases h0 : usable s stack n = 0
  · rw [if_pos h0] at hN ⊢
    exact ⟨by omega, by omega, fun e => absurd h0 e⟩
  · rw [if_neg h0] at hN ⊢
    have := usable_size h0
    have := (g.ostack _ (usable_mem h0)).1.sized
    exact ⟨by omega, by omega, fun _ => by omega⟩

/-- The result of `tryReindex`. -/
theorem tryReindex_post {cb : Nat → Bool} {stack : List Nat} {fuel src idx mask n N : Nat}
    (g : GIn s U u stack src idx mask n) (hN : N = max n (applySize s stack mask n)) :
    wlp (tryReindex ev cb stack fuel src idx mask n) s (fun r s' => ∃ U',
      (r = 0 ∧ St s' U' u ∧ Evo (GSize n N) (fun _ => False) u s U s' U') ∨
      GAt (GSize n N) s U u u (s.vars src).type N (TryVal s stack src idx mask n) r s' U') := by
  have nv : (s.vars idx).type ≠ .void := (isInt_ne g.itype).1
  have hpos := g.pos
  obtain ⟨gs1, gs2, gs3⟩ := gsize_mem g hN
  have gi : GSize n N (s.vars idx).size := by have := g.isize; unfold GSize; omega
  have gm : GSize n N (s.vars mask).size := by have := g.msize; unfold GSize; omega
  have gn : GSize n N n := .inr (.inl rfl)
  have gN : GSize n N N := .inr (.inr rfl)
  unfold tryReindex
  refine wlp_bind (wlp_mono (wlp_and (cast_post g.st (target := .u32) (re := false) g.oidx nv
    (.inr ⟨rfl, .inl g.itype, .inl rfl⟩)) (cast_sizes (Q := fun _ => False) g.st g.oidx nv)) ?_)
  rintro i2 s1 ⟨⟨U1, p⟩, z1⟩
  have p : PostAt _ _ _ _ _ _ _ i2 s1 U1 := p
  have zk : ∀ k, 0 < u k → (s1.vars k).size = (s.vars k).size := fun k hk =>
    (z1 k (g.st.alive hk)).resolve_right fun e => e.1
  have sz1 : ∀ t, stack.head? = some t → (s1.vars t).size = (s.vars t).size :=
    fun t ht => zk t (g.ostack t ht).1.held
  have us1 := usable_eq (n := n) sz1
  have sk1 : StackOK s1 (plus u [i2]) stack := fun t ht =>
    ⟨p.keep g.st (g.ostack t ht).1, by rw [(p.same g.st (g.ostack t ht).1.held).type, (g.ostack t ht).2]⟩
  have as1 : applySize s1 stack mask n = applySize s stack mask n := by
    unfold applySize
    rw [us1, zk mask g.omask.held]
    by_cases h0 : usable s stack n = 0
    · rw [if_pos h0, if_pos h0]
    · rw [if_neg h0, if_neg h0, sz1 _ (usable_mem h0)]
  have smm := p.same g.st g.omask.held
  have hmz : usable s1 stack n = 0 → (s1.vars mask).size ≤ n := by
    rw [zk mask g.omask.held]; intro _; have := g.msize; omega
  refine wlp_bind (wlp_mono (wlp_and (maskApply_post p.st (p.keep g.st g.omask) sk1 g.pos hmz)
    (maskApply_sizes (Q := GSize n N) p.st (p.keep g.st g.omask) sk1 g.pos hmz gn
      (by rw [zk mask g.omask.held]; exact gm) (by
        rw [us1]; intro h0; rw [sz1 _ (usable_mem h0)]; exact gs3 h0))) ?_)
  rintro m2 s2 ⟨⟨U2, q⟩, z2⟩
  have q : PostAt _ _ _ _ _ _ _ m2 s2 U2 := q
  rw [as1] at q
  have apos := applySize_pos g
  have f2 : Frame u s U s2 U2 := p.frame.trans (q.frame.mono fun _ => plus_pos_left)
  have ev2 : Evo (GSize n N) (fun _ => False) u s U s2 U2 :=
    (p.evo (fun k hk => .inl (zk k (hk.resolve_right id)))).trans
      ((q.evo (fun k hk => z2 k (hk.resolve_right id))).mono fun _ => plus_pos_left)
  have ty2 := typed_next g.st g.osrc.held g.typed q.st f2
  have sm2 : ∀ k, 0 < u k → Same s s2 k := fun k hk => (same_of g.st q.st f2 hk (g.st.alive hk)).2
  have hi2 : Operand s1 (plus u [i2]) i2 := p.operand g.oidx.sized
  have si2 := q.same p.st hi2.held
  have c : Ctx s2 U2 (plus (plus u [i2]) [m2]) src i2 m2 (GSize n N) n :=
    ⟨q.st, plus_pos_left (plus_pos_left g.osrc.held), q.keep p.st hi2, by rw [si2.type, p.type],
      (z2 i2 hi2.held).mem (by rw [p.size]; exact gi), q.operand apos, q.type, by rw [q.size]; exact gs1, ty2,
      g.pos, .inl rfl, gn⟩
  have hi : ∀ l X, IdxVal s idx l X → Val s2 i2 l X := fun l X hx => si2.val _ _ (p.val hx)
  have hm : ∀ l m, MaskVal s stack mask n l m → Val s2 m2 l m := by
    rintro l m ⟨y, hy, e1, e2⟩
    refine q.val ⟨y, smm.val _ _ hy, by rw [us1]; exact e1, ?_⟩
    rw [us1]
    intro h0
    obtain ⟨w, hw, e⟩ := e2 h0
    exact ⟨w, (p.same g.st (g.ostack _ (usable_mem h0)).1.held).val _ _ hw, e⟩
  have R : Run s2 U2 (plus (plus u [i2]) [m2]) src i2 m2 (GSize n N) s2 U2 (plus (plus u [i2]) [m2]) [] :=
    ⟨by rw [List.map_nil, plus_nil]; exact q.st, .refl, fun _ => id, fun _ h => nomatch h⟩
  refine wlp_bind (wlp_mono (reindex_post (ev := ev) c (cb := cb) fuel src [] s2 U2 _ R .root) ?_)
  rintro a s3 ⟨U3, a1, a2, _, a4⟩
  generalize hX : plus (plus (plus u [i2]) [m2]) (a.2.map Prod.snd) = X at a1
  have hXu : ∀ k, 0 < plus (plus u [i2]) [m2] k → 0 < X k := fun k hk => by rw [← hX]; exact plus_pos_left hk
  have a2' : Evo (GSize n N) (fun _ => False) (plus (plus u [i2]) [m2]) s2 U2 s3 U3 :=
    ⟨a2.frame, fun k hk => a2.size k (hk.imp_right False.elim), a2.clean⟩
  have ev3 : Evo (GSize n N) (fun _ => False) u s U s3 U3 :=
    ev2.trans (a2'.mono fun _ hk => plus_pos_left (plus_pos_left hk))
  refine wlp_ite (fun hr => ?_) (fun hr => ?_)
  · have g3 := a4 hr
    refine wlp_bind (wlp_mono (inc_any (Q := GSize n N) (P := fun _ => False) a1 (.inr (a1.alive
      (by rw [plus_self hr]; omega)))) ?_)
    rintro _ s4 ⟨b1, b2, b3, b4⟩
    have g4 := g3.next a1 b1 (b2 (fun _ => 1)) Nat.one_pos (a1.alive (by rw [plus_self hr]; omega))
    have oa : Operand s4 (plus (plus X [a.1]) [a.1]) a.1 := g4.good.operand (by rw [plus_self hr]; omega)
    have h2r : 2 ≤ plus (plus X [a.1]) [a.1] a.1 := by rw [plus_self hr, plus_self hr]; omega
    have rs : wlp (varResize ev a.1 n) s4 (fun t s5 => Post s4 U3 (plus (plus X [a.1]) [a.1]) (s4.vars a.1).type n
        ((s4.vars a.1).kind = .literal) (fun l z => Val s4 a.1 l z) t s5 ∧ Sizes (GSize n N) s4 U3 s5) := by
      by_cases hle : (s4.vars a.1).size ≤ n
      · exact wlp_and (resize_post b1 oa g.pos hle) (resize_sizes b1 oa hle g4.good.sz gn)
      · exact resize_big b1 oa g.pos (by omega) h2r
    refine wlp_bind (wlp_mono rs ?_)
    rintro t s5 ⟨⟨U5, d⟩, z5⟩
    have d : PostAt _ _ _ _ _ _ _ t s5 U5 := d
    -- the mask in the current state
    have alm : Alive s2 U2 m2 := q.alive
    have hum : 0 < plus (plus u [i2]) [m2] m2 := by rw [plus_self q.alive.1]; omega
    have e25 : Evo (GSize n N) (fun _ => False) (plus (plus u [i2]) [m2]) s2 U2 s5 U5 :=
      (a2'.trans (b2 _)).trans ((d.evo (fun k hk => z5 k (b1.alive (hk.resolve_right id)))).mono fun k hk =>
        plus_pos_left (plus_pos_left (hXu k hk)))
    obtain ⟨_, sm5⟩ := same_of q.st d.st e25.frame hum alm
    have zm := e25.size m2 (.inl hum)
    have zmq : GSize n N (s5.vars m2).size := zm.mem (by rw [q.size]; exact gs1)
    have zmg := zm.grow
    rw [q.size] at zmg
    have om : Operand s5 (plus (plus (plus X [a.1]) [a.1]) [t]) m2 :=
      ⟨plus_pos_left (plus_pos_left (plus_pos_left (hXu _ hum))), by omega, e25.clean _ hum q.clean,
        q.litOK.body sm5.body⟩
    have ht5 : (s5.vars t).type = (s.vars src).type := by
      rw [d.type, g4.good.type, (sm2 src g.osrc.held).type]
    have hs5 : Scalar (s5.vars t).type := by rw [ht5]; exact g.stype
    refine wlp_bind (wlp_mono (wlp_and (andMask_post d.st (d.operand g.pos) om hs5
      (by rw [sm5.type, q.type])) (and_sizes (Q := GSize n N) d.st (d.operand g.pos) om (scalar_ne hs5)
      (by rw [sm5.type, q.type]; decide) (by rw [d.size]; exact gn) zmq)) ?_)
    rintro r s6 ⟨⟨U6, f⟩, z6⟩
    have f : PostAt _ _ _ _ _ _ _ r s6 U6 := f
    have hsz : max (s5.vars t).size (s5.vars m2).size = N := by
      rw [d.size]
      unfold GSize at zmq
      omega
    rw [hsz, ht5] at f
    have e36 : Evo (GSize n N) (fun _ => False) u s U s6 U6 :=
      (ev2.trans (e25.mono fun _ hk => plus_pos_left (plus_pos_left hk))).trans
        ((f.evo (fun k hk => z6 k (d.st.alive (hk.resolve_right id)))).mono fun k hk =>
          plus_pos_left (plus_pos_left (plus_pos_left (hXu k (plus_pos_left (plus_pos_left hk))))))
    have G : GAt (GSize n N) s U u (plus (plus (plus X [a.1]) [a.1]) [t]) (s.vars src).type N
        (TryVal s stack src idx mask n) r s6 U6 := by
      refine ⟨f.st, e36, f.alive.1, f.type, f.size, f.clean, f.litOK, ?_⟩
      rintro l z ⟨X, m, hX, hM, hz⟩
      have v5 : ∀ m, Val s2 m2 l m → Val s5 m2 l m := fun m hm => sm5.val _ _ hm
      rcases hz with ⟨rfl, hz⟩ | ⟨rfl, hT, rfl⟩
      · exact f.val ⟨z, 1#64, d.val (g4.good.val l X z (hm _ _ hM) (hi _ _ hX)
          ((sm2 src g.osrc.held).val _ _ hz)), v5 _ (hm _ _ hM), rfl⟩
      · obtain ⟨v, hv⟩ := g4.good.tot (total_next g.st g.osrc.held g.typed q.st f2 .root hT) l X 0#64
          (hi _ _ hX) (hm _ _ hM)
        exact f.val ⟨v, 0#64, d.val hv, v5 _ (hm _ _ hM), rfl⟩
    have hXu' : ∀ k, 0 < u k → 0 < X k := fun k hk => hXu k (plus_pos_left (plus_pos_left hk))
    refine wlp_bind (wlp_mono (G.drop fun k hk => plus_pos_left (plus_pos_left (hXu' k hk))) ?_)
    rintro _ s7 ⟨U7, G⟩
    refine wlp_bind (wlp_mono (G.drop fun k hk => plus_pos_left (hXu' k hk)) ?_)
    rintro _ s8 ⟨U8, G⟩
    refine wlp_bind (wlp_pure ?_)
    refine wlp_bind (wlp_mono (G.drop hXu') ?_)
    rintro _ s9 ⟨U9, G⟩
    have eX : X = plus (plus (plus u [i2]) (a.2.map Prod.snd)) [m2] := by rw [← hX, plus_comm]
    rw [eX] at G
    refine wlp_bind (wlp_mono (G.drop fun k hk => plus_pos_left (plus_pos_left hk)) ?_)
    rintro _ s10 ⟨U10, G⟩
    refine wlp_bind (wlp_mono (dropMemo_gat (fun k hk => plus_pos_left hk) a.2 G) ?_)
    rintro _ s11 ⟨U11, G⟩
    refine wlp_bind (wlp_mono (G.drop fun k hk => hk) ?_)
    rintro _ s12 ⟨U12, G⟩
    exact wlp_pure ⟨U12, .inr G⟩
  · have hr : a.1 = 0 := by by_contra hh; exact hr hh
    refine wlp_bind (wlp_pure ?_)
    refine wlp_bind (wlp_mono (decRef_post a1) ?_)
    rintro _ s4 ⟨U4, b1, b2, b3, b4⟩
    have eX : X = plus (plus (plus u [i2]) (a.2.map Prod.snd)) [m2] := by rw [← hX, plus_comm]
    rw [eX] at b1 b2
    refine wlp_bind (wlp_mono (decRef_post b1) ?_)
    rintro _ s5 ⟨U5, d1, d2, d3, d4⟩
    refine wlp_bind (wlp_mono (dropMemo_post (Q := GSize n N) (P := fun _ => False) a.2 d1) ?_)
    rintro _ s6 ⟨U6, e1, e2⟩
    refine wlp_bind (wlp_mono (decRef_post e1) ?_)
    rintro _ s7 ⟨U7, f1, f2, f3, f4⟩
    refine wlp_pure ⟨U7, .inl ⟨rfl, f1, ?_⟩⟩
    exact (((ev3.trans ((Evo.raw b2 b3 b4).mono fun k hk => plus_pos_left (plus_pos_left (plus_pos_left hk)))).trans
      ((Evo.raw d2 d3 d4).mono fun k hk => plus_pos_left (plus_pos_left hk))).trans
      (e2.mono fun k hk => plus_pos_left hk)).trans (Evo.raw f2 f3 f4)

end Verif.Gather
