import Verif.CudaScatter.Lemmas

namespace Verif.CudaScatter
variable {V : Type}

/-! ### Leaders and classes -/

/-- Lanes of rank zero -/
def Group.leaders (g : Group V) (shift : Nat) : List Nat := (List.range 32).filter fun l => g.active l && g.rank shift l == 0

theorem mem_leaders {g : Group V} {shift l : Nat} : l ∈ g.leaders shift ↔ l < 32 ∧ g.active l = true ∧ g.rank shift l = 0 := by
  unfold Group.leaders
  simp [List.mem_filter]

theorem leader_unique {g : Group V} {shift l l' : Nat} (h : l ∈ g.leaders shift) (h' : l' ∈ g.leaders shift)
    (e : g.index shift l = g.index shift l') : l = l' := by
  obtain ⟨h1, h2, h3⟩ := mem_leaders.1 h
  obtain ⟨h1', h2', h3'⟩ := mem_leaders.1 h'
  obtain ⟨r, hr, er, hrk⟩ := exists_pos (shift := shift) h1 h2
  obtain ⟨r', hr', er', hrk'⟩ := exists_pos (shift := shift) h1' h2'
  have : r = 0 := by omega
  subst this
  have : r' = 0 := by omega
  subst this
  rw [← er, ← er']
  simp only [e]

theorem leaders_flatMap (g : Group V) (shift : Nat) :
    ((g.leaders shift).flatMap fun l => g.cls shift (g.index shift l)).Perm ((List.range 32).filter fun l => g.active l) := by
  have hn : ((List.range 32).filter fun l => g.active l).Nodup := List.nodup_range.filter _
  have hl : (g.leaders shift).Nodup := List.nodup_range.filter _
  rw [List.perm_ext_iff_of_nodup ?_ hn]
  · intro j
    rw [List.mem_flatMap, List.mem_filter, List.mem_range]
    constructor
    · rintro ⟨l, -, hj⟩
      have := mem_cls.1 hj
      exact ⟨this.1, this.2.1⟩
    · rintro ⟨hj, ha⟩
      obtain ⟨r, hr, e, hrk⟩ := exists_pos (shift := shift) hj ha
      have h0 : 0 < (g.cls shift (g.index shift j)).length := by omega
      have hm := mem_cls.1 (List.getElem_mem h0)
      refine ⟨(g.cls shift (g.index shift j))[0], mem_leaders.2 ⟨hm.1, hm.2.1, rank_cls h0⟩, ?_⟩
      rw [hm.2.2]
      exact mem_cls.2 ⟨hj, ha, rfl⟩
  · rw [List.nodup_flatMap]
    refine ⟨fun l _ => List.nodup_range.filter _, ?_⟩
    refine List.Pairwise.imp_of_mem (R := (· ≠ ·)) ?_ hl
    intro a b ha hb hab x hx hx'
    exact hab (leader_unique ha hb ((mem_cls.1 hx).2.2.symm.trans (mem_cls.1 hx').2.2))

theorem flatMap_transpose {α β γ : Type} (l : List α) (l' : List β) (f : α → β → γ) :
    (l.flatMap fun a => l'.map fun b => f a b).Perm (l'.flatMap fun b => l.map fun a => f a b) := by
  induction l' with
  | nil => simp
  | cons b l' ih =>
    rw [List.flatMap_cons]
    exact ((List.map_append_flatMap_perm l (fun a => f a b) (fun a => l'.map fun b => f a b)).symm).trans (ih.append_left _)

/-- Lanes of an array of less than 2^32 elements with the same index have the same address. -/
theorem addr_of_index {g : Group V} {shift l l' : Nat} (h : g.InArray shift) (hl : l < 32) (hl' : l' < 32) (ha : g.active l = true)
    (ha' : g.active l' = true) (e : g.index shift l = g.index shift l') : g.addr l = g.addr l' := by
  obtain ⟨base, hb⟩ := h
  obtain ⟨x, hx, ex⟩ := hb l hl ha
  obtain ⟨y, hy, ey⟩ := hb l' hl' ha'
  have hp : 0 < 2 ^ shift := Nat.pos_of_ne_zero (pow_ne_zero shift two_ne_zero)
  unfold Group.index at e
  rw [ex, ey, Nat.add_mul_div_right _ _ hp, Nat.add_mul_div_right _ _ hp] at e
  have : x = y := by omega
  rw [ex, ey, this]

theorem addr_of_cls {g : Group V} {shift l j : Nat} (h : g.InArray shift) (hl : l ∈ g.leaders shift)
    (hj : j ∈ g.cls shift (g.index shift l)) : g.addr j = g.addr l := by
  have h1 := mem_leaders.1 hl
  have h2 := mem_cls.1 hj
  exact addr_of_index h h2.1 h1.1 h2.2.1 h1.2.1 h2.2.2

/-! ### What a group adds -/

/-- An atomic operation: address, the values that are combined in it, the operand -/
abbrev Chunk (V : Type) := Nat × List V × V

/-- The operations of leaders -/
def Group.chunks (g : Group V) (n shift : Nat) (q : Nat → Nat → V) : List (Chunk V) :=
  (g.leaders shift).flatMap fun l => (List.range n).map fun i =>
    (g.addr l + i * 2 ^ shift, (g.cls shift (g.index shift l)).map (fun j => g.val j i), q l i)

theorem chunks_ops (g : Group V) (n shift : Nat) (q : Nat → Nat → V) :
    (g.chunks n shift q).map (fun c => (c.1, c.2.2)) = g.reds n (2 ^ shift) (fun l => g.rank shift l == 0) q := by
  unfold Group.chunks Group.reds Group.leaders
  rw [List.map_flatMap]
  congr 1; funext l
  rw [List.map_map]; rfl

theorem chunks_perm {g : Group V} {n shift : Nat} {q : Nat → Nat → V} (h : g.InArray shift) :
    ((g.chunks n shift q).flatMap fun c => c.2.1.map fun v => (c.1, v)).Perm (g.direct n (2 ^ shift)) := by
  unfold Group.chunks Group.direct Group.reds
  rw [List.flatMap_assoc]
  have h1 : ((g.leaders shift).flatMap fun l => ((List.range n).map fun i =>
      (g.addr l + i * 2 ^ shift, (g.cls shift (g.index shift l)).map (fun j => g.val j i), q l i)).flatMap fun c => c.2.1.map fun v => (c.1, v)).Perm
      ((g.leaders shift).flatMap fun l => (g.cls shift (g.index shift l)).flatMap fun j =>
        (List.range n).map fun i => (g.addr j + i * 2 ^ shift, g.val j i)) := by
    apply List.Perm.flatMap_left
    intro l hl
    rw [List.flatMap_map]
    have e : ((List.range n).flatMap fun i => ((g.cls shift (g.index shift l)).map (fun j => g.val j i)).map fun v => (g.addr l + i * 2 ^ shift, v)) =
        (List.range n).flatMap fun i => (g.cls shift (g.index shift l)).map fun j => (g.addr j + i * 2 ^ shift, g.val j i) := by
      congr 1; funext i
      rw [List.map_map]
      apply List.map_congr_left
      intro j hj
      simp only [Function.comp, addr_of_cls h hl hj]
    refine (List.Perm.of_eq e).trans ?_
    exact flatMap_transpose _ _ _
  refine h1.trans ?_
  rw [← List.flatMap_assoc]
  simp only [Bool.and_true]
  exact (leaders_flatMap g shift).flatMap_right _

theorem full_rank {g : Group V} {shift l : Nat} (ha : g.active l = true) (hf : g.full shift l = true) (hl : l < 32) :
    g.cls shift (g.index shift l) = List.range 32 ∧ (∀ j < 32, g.active j = true ∧ g.index shift j = g.index shift l) ∧
    ∀ j < 32, g.rank shift j = j := by
  have hall : ∀ j < 32, g.active j = true ∧ g.index shift j = g.index shift l := by
    intro j hj
    unfold Group.full at hf
    have := List.all_eq_true.1 hf j (List.mem_range.2 hj)
    simpa [Group.peers] using this
  have hc : g.cls shift (g.index shift l) = List.range 32 := by
    unfold Group.cls
    apply List.filter_eq_self.2
    intro j hj
    have := hall j (List.mem_range.1 hj)
    simp [this]
  refine ⟨hc, hall, fun j hj => ?_⟩
  have hlen : j < (g.cls shift (g.index shift l)).length := by rw [hc, List.length_range]; exact hj
  have hr := rank_cls hlen
  simp only [hc, List.getElem_range] at hr
  exact hr

/-- What the atomic operations of a group combine -/
theorem warpReduce_chunks {g : Group V} {op : V → V → V} {n shift : Nat} {ws : List (Nat × V)} (h : g.InArray shift)
    (hw : g.WarpReduce op n shift ws) : ∃ ch : List (Chunk V), ws = ch.map (fun c => (c.1, c.2.2)) ∧
      (∀ c ∈ ch, Bracketed op c.2.1 c.2.2) ∧ (ch.flatMap fun c => c.2.1.map fun v => (c.1, v)).Perm (g.direct n (2 ^ shift)) := by
  unfold Group.WarpReduce at hw
  by_cases hf : ((List.range 32).any fun l => g.active l && g.full shift l) = true
  · rw [if_pos hf] at hw
    obtain ⟨l, hl, hlf⟩ := List.any_eq_true.1 hf
    rw [List.mem_range] at hl
    rw [Bool.and_eq_true] at hlf
    obtain ⟨hc, hall, hrk⟩ := full_rank hlf.1 hlf.2 hl
    refine ⟨g.chunks n shift (butterfly op g.val), ?_, ?_, chunks_perm h⟩
    · rw [chunks_ops, hw]
      unfold Group.reds
      congr 1
      apply List.filter_congr
      intro j hj
      simp only [hrk j (List.mem_range.1 hj)]
    · intro c hcm
      unfold Group.chunks at hcm
      obtain ⟨j, hj, hcj⟩ := List.mem_flatMap.1 hcm
      obtain ⟨i, -, rfl⟩ := List.mem_map.1 hcj
      obtain ⟨h1, h2, h3⟩ := mem_leaders.1 hj
      have : j = 0 := by rw [hrk j h1] at h3; exact h3
      subst this
      simp only
      rw [(hall 0 h1).2, hc]
      exact butterfly_spec op g.val i
  · rw [if_neg hf] at hw
    obtain ⟨r, hL, rfl⟩ := hw
    refine ⟨g.chunks n shift r.q, (chunks_ops g n shift r.q).symm, ?_, chunks_perm h⟩
    intro c hcm
    unfold Group.chunks at hcm
    obtain ⟨j, hj, hcj⟩ := List.mem_flatMap.1 hcm
    obtain ⟨i, -, rfl⟩ := List.mem_map.1 hcj
    obtain ⟨h1, h2, h3⟩ := mem_leaders.1 hj
    exact loop_spec hL 0 (inv_start g op shift) j h1 h2 h3 i

/-! ### Memory -/

theorem foldl_red (op : V → V → V) (a : Nat) (ws : List (Nat × V)) (m : Nat → V) :
    (ws.foldl (red op) m) a = ((ws.filter fun w => w.1 = a).map fun w => w.2).foldl op (m a) := by
  induction ws generalizing m with
  | nil => rfl
  | cons w ws ih =>
    rw [List.foldl_cons, ih]
    by_cases h : w.1 = a
    · rw [List.filter_cons_of_pos (by simpa using h), List.map_cons, List.foldl_cons]
      unfold red
      rw [← h, Function.update_self]
    · rw [List.filter_cons_of_neg (by simpa using h)]
      unfold red
      rw [Function.update_of_ne (fun e => h e.symm)]

theorem contributions_eq (n tsize : Nat) (gs : List (Group V)) (a : Nat) :
    contributions n tsize gs a = ((gs.flatMap fun g => g.direct n tsize).filter fun w => w.1 = a).map fun w => w.2 := by
  unfold contributions Group.direct Group.reds
  rw [List.filter_flatMap, List.map_flatMap]
  congr 1; funext g
  simp only [Bool.and_true]
  rw [List.filter_flatMap, List.map_flatMap]
  congr 1; funext l
  rw [List.filter_map, List.map_map]
  rfl

theorem chunks_filter (ch : List (Chunk V)) (a : Nat) :
    ((ch.flatMap fun c => c.2.1.map fun v => (c.1, v)).filter fun w => w.1 = a).map (fun w => w.2) =
    ((ch.filter fun c => c.1 = a).map fun c => c.2).flatMap fun c => c.1 := by
  induction ch with
  | nil => rfl
  | cons c ch ih =>
    rw [List.flatMap_cons, List.filter_append, List.map_append, ih]
    by_cases h : c.1 = a
    · rw [List.filter_cons_of_pos (by simpa using h), List.map_cons, List.flatMap_cons]
      congr 1
      rw [List.filter_eq_self.2 (by intro x hx; obtain ⟨v, -, rfl⟩ := List.mem_map.1 hx; simpa using h), List.map_map]
      exact List.map_id _
    · rw [List.filter_cons_of_neg (by simpa using h), List.filter_eq_nil_iff.2
        (by intro x hx; obtain ⟨v, -, rfl⟩ := List.mem_map.1 hx; simpa using h)]
      rfl

theorem all_chunks {op : V → V → V} {n shift : Nat} : ∀ {gs : List (Group V)} {ops : List (List (Nat × V))},
    List.Forall₂ (fun g w => g.WarpReduce op n shift w) gs ops → (∀ g ∈ gs, g.InArray shift) →
    ∃ ch : List (Chunk V), ops.flatten = ch.map (fun c => (c.1, c.2.2)) ∧ (∀ c ∈ ch, Bracketed op c.2.1 c.2.2) ∧
      (ch.flatMap fun c => c.2.1.map fun v => (c.1, v)).Perm (gs.flatMap fun g => g.direct n (2 ^ shift)) := by
  intro gs ops h
  induction h with
  | nil => intro _; exact ⟨[], rfl, by simp, by simp⟩
  | cons hw _ ih =>
    intro hA
    obtain ⟨c1, e1, b1, p1⟩ := warpReduce_chunks (hA _ (by simp)) hw
    obtain ⟨c2, e2, b2, p2⟩ := ih fun g hg => hA g (by simp [hg])
    refine ⟨c1 ++ c2, ?_, ?_, ?_⟩
    · rw [List.flatten_cons, List.map_append, e1, e2]
    · intro c hc
      rcases List.mem_append.1 hc with h | h
      · exact b1 c h
      · exact b2 c h
    · rw [List.flatMap_append, List.flatMap_cons]
      exact p1.append p2

/-- Bracketing is irrelevant for associative operations. -/
theorem bracketed_fold {op : V → V → V} (hA : ∀ a b c, op (op a b) c = op a (op b c)) {l : List V} {v : V} (h : Bracketed op l v) :
    ∀ x, op x v = l.foldl op x := by
  induction h with
  | one v => intro x; rfl
  | join _ _ ih ih' => intro x; rw [List.foldl_append, ← ih, ← ih', hA]

theorem bracketed_folds {op : V → V → V} (hA : ∀ a b c, op (op a b) c = op a (op b c)) : ∀ (cs : List (List V × V)),
    (∀ c ∈ cs, Bracketed op c.1 c.2) → ∀ x, (cs.map fun c => c.2).foldl op x = (cs.flatMap fun c => c.1).foldl op x := by
  intro cs
  induction cs with
  | nil => intro _ x; rfl
  | cons c cs ih =>
    intro h x
    rw [List.map_cons, List.foldl_cons, List.flatMap_cons, List.foldl_append, bracketed_fold hA (h c (by simp)),
      ih fun c hc => h c (by simp [hc])]

end Verif.CudaScatter
