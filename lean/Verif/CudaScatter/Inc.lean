import Verif.CudaScatter.Reduce

namespace Verif.CudaScatter

/-- Key of an operation -/
def opKey (o : Nat × Nat × Nat × Nat) : Nat × Nat := (o.1, o.2.1)

/-- Results that one atomic addition yields -/
def block (prev : Nat → Nat → BitVec 32) (o : Nat × Nat × Nat × Nat) : List (BitVec 32) :=
  (List.range o.2.2.2).map fun r => prev o.1 o.2.1 + BitVec.ofNat 32 r

/-- Total of additions to an address -/
def total (a : Nat) (ops : List (Nat × Nat × Nat × Nat)) : Nat := ((ops.filter fun o => o.2.2.1 = a).map fun o => o.2.2.2).sum

theorem runInc_mem (a : Nat) : ∀ (ops : List (Nat × Nat × Nat × Nat)) (m : Nat → BitVec 32),
    (runInc m ops).1 a = m a + BitVec.ofNat 32 (total a ops) := by
  intro ops
  induction ops with
  | nil => intro m; simp [runInc, total]
  | cons o ops ih =>
    intro m
    obtain ⟨k, l, b, n⟩ := o
    simp only [runInc]
    rw [ih]
    by_cases h : b = a
    · subst h
      have e : total b ((k, l, b, n) :: ops) = n + total b ops := by
        unfold total; rw [List.filter_cons_of_pos (by simp)]; simp
      rw [e, Function.update_self, BitVec.ofNat_add, BitVec.add_assoc]
    · have e : total a ((k, l, b, n) :: ops) = total a ops := by
        unfold total; rw [List.filter_cons_of_neg (by simpa using h)]
      rw [e, Function.update_of_ne (fun e => h e.symm)]

theorem runInc_prev (a : Nat) : ∀ (ops : List (Nat × Nat × Nat × Nat)) (m : Nat → BitVec 32), (ops.map opKey).Nodup →
    ((ops.filter fun o => o.2.2.1 = a).flatMap (block (runInc m ops).2)) =
      (List.range (total a ops)).map fun r => m a + BitVec.ofNat 32 r := by
  intro ops
  induction ops with
  | nil => intro m _; simp [total]
  | cons o ops ih =>
    intro m hn
    obtain ⟨k, l, b, n⟩ := o
    rw [List.map_cons, List.nodup_cons] at hn
    have hrest : ((ops.filter fun o => o.2.2.1 = a).flatMap (block (runInc m ((k, l, b, n) :: ops)).2)) =
        (ops.filter fun o => o.2.2.1 = a).flatMap (block (runInc (Function.update m b (m b + BitVec.ofNat 32 n)) ops).2) := by
      apply List.flatMap_congr
      intro o ho
      have hne : ¬ (o.1 = k ∧ o.2.1 = l) := by
        intro hh
        apply hn.1
        rw [List.mem_map]
        exact ⟨o, (List.mem_filter.1 ho).1, by unfold opKey; rw [hh.1, hh.2]⟩
      unfold block
      simp only [runInc]
      rw [if_neg hne]
    by_cases h : b = a
    · subst h
      have e : total b ((k, l, b, n) :: ops) = n + total b ops := by
        unfold total; rw [List.filter_cons_of_pos (by simp)]; simp
      rw [List.filter_cons_of_pos (by simp), List.flatMap_cons, hrest, ih _ hn.2, e, List.range_add, List.map_append, List.map_map]
      congr 1
      · unfold block
        simp only [runInc, and_self, if_true]
      · apply List.map_congr_left
        intro r _
        rw [Function.update_self, Function.comp, BitVec.ofNat_add, BitVec.add_assoc]
    · have e : total a ((k, l, b, n) :: ops) = total a ops := by
        unfold total; rw [List.filter_cons_of_neg (by simpa using h)]
      rw [List.filter_cons_of_neg (by simpa using h), hrest, ih _ hn.2, e, Function.update_of_ne (fun e => h e.symm)]

/-- `incOps` in terms of leaders -/
def groupOps (gs : List (Group Unit)) (k : Nat) : List (Nat × Nat × Nat × Nat) := match gs[k]? with
  | none => []
  | some g => (g.leaders 2).map fun l => (k, l, g.addr l, popc (g.peers 2 l))

theorem incOps_eq (gs : List (Group Unit)) : incOps gs = (List.range gs.length).flatMap (groupOps gs) := rfl

theorem incOps_nodup (gs : List (Group Unit)) : ((incOps gs).map opKey).Nodup := by
  rw [incOps_eq, List.map_flatMap, List.nodup_flatMap]
  refine ⟨fun k _ => ?_, ?_⟩
  · unfold groupOps
    cases gs[k]? with
    | none => simp
    | some g =>
      simp only [List.map_map]
      refine List.Nodup.map ?_ (List.nodup_range.filter _)
      intro a b hab
      exact (Prod.ext_iff.1 hab).2
  · refine List.Pairwise.imp (R := (· ≠ ·)) ?_ List.nodup_range
    intro k k' hk x hx hx'
    have key : ∀ k, x ∈ (groupOps gs k).map opKey → x.1 = k := by
      intro k hx
      unfold groupOps at hx
      cases hg : gs[k]? with
      | none => rw [hg] at hx; simp at hx
      | some g =>
        rw [hg] at hx
        simp only [List.map_map, List.mem_map] at hx
        obtain ⟨l, -, rfl⟩ := hx
        rfl
    exact hk ((key k hx).symm.trans (key k' hx'))

theorem popc_peers (g : Group Unit) (l : Nat) : popc (g.peers 2 l) = (g.cls 2 (g.index 2 l)).length := rfl

theorem lowest_peers {V : Type} {g : Group V} {shift l : Nat} (h0 : 0 < (g.cls shift (g.index shift l)).length) :
    lowest (g.peers shift l) = some (g.cls shift (g.index shift l))[0] := by
  have hm := mem_cls.1 (List.getElem_mem h0)
  unfold lowest
  rw [List.find?_range_eq_some]
  refine ⟨by simp [Group.peers, hm.2.1, hm.2.2], List.mem_range.2 hm.1, fun j hj => ?_⟩
  rw [Bool.not_eq_true', Bool.eq_false_iff]
  intro hp
  have hp' : g.active j = true ∧ g.index shift j = g.index shift l := by simpa [Group.peers] using hp
  obtain ⟨t, ht, e⟩ := List.mem_iff_getElem.1 (mem_cls.2 ⟨by omega, hp'.1, hp'.2⟩ : j ∈ g.cls shift (g.index shift l))
  rw [← e] at hj
  have := (cls_lt ht h0).1 hj
  omega

/-- Results of a class -/
theorem class_out {gs : List (Group Unit)} {k : Nat} {g : Group Unit} {prev out : Nat → Nat → BitVec 32} (hg : gs[k]? = some g)
    (hout : ∀ k g l, gs[k]? = some g → l < 32 → g.active l → ∃ j, lowest (g.peers 2 l) = some j ∧
      out k l = BitVec.ofNat 32 (g.rank 2 l) + prev k j) {l : Nat} (hl : l ∈ g.leaders 2) :
    (g.cls 2 (g.index 2 l)).map (out k) = block prev (k, l, g.addr l, popc (g.peers 2 l)) := by
  unfold block
  simp only [popc_peers]
  apply List.ext_getElem
  · simp
  intro r h1 h2
  rw [List.length_map] at h1
  rw [List.getElem_map, List.getElem_map, List.getElem_range]
  have hm := mem_cls.1 (List.getElem_mem h1)
  obtain ⟨j, hj, ho⟩ := hout k g _ hg hm.1 hm.2.1
  rw [ho, rank_cls h1, BitVec.add_comm]
  congr 2
  have h0 : 0 < (g.cls 2 (g.index 2 l)).length := by omega
  rw [lowest_peers (by rw [hm.2.2]; exact h0)] at hj
  simp only [hm.2.2] at hj
  have hm0 := mem_cls.1 (List.getElem_mem h0)
  have := leader_unique hl (mem_leaders.2 ⟨hm0.1, hm0.2.1, rank_cls h0⟩) hm0.2.2.symm
  rw [Option.some_inj] at hj
  rw [← hj, ← this]

theorem filter_const {α β : Type} (l : List α) (f : α → List β) (p : β → Bool) (p' : α → Bool)
    (h : ∀ a ∈ l, ∀ b ∈ f a, p b = p' a) : (l.flatMap f).filter p = (l.filter p').flatMap f := by
  induction l with
  | nil => rfl
  | cons a l ih =>
    rw [List.flatMap_cons, List.filter_append, ih fun a ha => h a (by simp [ha])]
    cases hp : p' a with
    | true =>
      rw [List.filter_cons_of_pos hp, List.flatMap_cons, List.filter_eq_self.2]
      intro b hb; rw [h a (by simp) b hb, hp]
    | false =>
      rw [List.filter_cons_of_neg (by simp [hp]), List.filter_eq_nil_iff.2]
      · rfl
      · intro b hb; rw [h a (by simp) b hb, hp]; simp

/-- Results of the lanes of one group that use address `a` -/
theorem group_out {gs : List (Group Unit)} {k a : Nat} {g : Group Unit} {prev out : Nat → Nat → BitVec 32} (hg : gs[k]? = some g)
    (hA : g.InArray 2)
    (hout : ∀ k g l, gs[k]? = some g → l < 32 → g.active l → ∃ j, lowest (g.peers 2 l) = some j ∧
      out k l = BitVec.ofNat 32 (g.rank 2 l) + prev k j) :
    (((groupOps gs k).filter fun o => o.2.2.1 = a).flatMap (block prev)).Perm
      (((List.range 32).filter fun l => g.active l && g.addr l == a).map (out k)) := by
  unfold groupOps
  rw [hg]
  simp only
  rw [List.filter_map, List.flatMap_map]
  have h1 : (((g.leaders 2).filter ((fun o : Nat × Nat × Nat × Nat => decide (o.2.2.1 = a)) ∘ fun l => (k, l, g.addr l, popc (g.peers 2 l)))).flatMap
      fun l => block prev (k, l, g.addr l, popc (g.peers 2 l))) =
      (((g.leaders 2).flatMap fun l => g.cls 2 (g.index 2 l)).filter fun j => g.addr j == a).map (out k) := by
    rw [filter_const (p' := fun l => g.addr l == a), List.map_flatMap]
    · rw [show (g.leaders 2).filter ((fun o : Nat × Nat × Nat × Nat => decide (o.2.2.1 = a)) ∘ fun l => (k, l, g.addr l, popc (g.peers 2 l))) =
        (g.leaders 2).filter fun l => g.addr l == a by
          apply List.filter_congr; intro x _; rw [Bool.eq_iff_iff]; simp]
      apply List.flatMap_congr
      intro l hl
      exact (class_out hg hout (List.mem_filter.1 hl).1).symm
    · intro l hl j hj
      rw [addr_of_cls hA hl hj]
  rw [h1]
  have h2 := ((leaders_flatMap g 2).filter fun j => g.addr j == a).map (out k)
  refine h2.trans (List.Perm.of_eq ?_)
  rw [List.filter_filter]
  congr 1
  apply List.filter_congr
  intro x _
  exact Bool.and_comm _ _

theorem inc_spec {gs : List (Group Unit)} {m m' : Nat → BitVec 32} {out : Nat → Nat → BitVec 32} (hA : ∀ g ∈ gs, g.InArray 2)
    (h : IncExec gs m m' out) (a : Nat) :
    m' a = m a + BitVec.ofNat 32 (lanesAt gs a).length ∧
    ((lanesAt gs a).map fun p => out p.1 p.2).Perm ((List.range (lanesAt gs a).length).map fun r => m a + BitVec.ofNat 32 r) := by
  obtain ⟨ops, hperm, rfl, hout⟩ := h
  have hn : (ops.map opKey).Nodup := (hperm.map opKey).nodup_iff.2 (incOps_nodup gs)
  have h1 := runInc_prev a ops m hn
  have h2 : ((ops.filter fun o => o.2.2.1 = a).flatMap (block (runInc m ops).2)).Perm ((lanesAt gs a).map fun p => out p.1 p.2) := by
    refine ((hperm.filter _).flatMap_right _).trans ?_
    rw [incOps_eq, List.filter_flatMap, List.flatMap_assoc]
    unfold lanesAt
    rw [List.map_flatMap]
    apply List.Perm.flatMap_left
    intro k hk
    rw [List.mem_range] at hk
    have hg : gs[k]? = some gs[k] := List.getElem?_eq_getElem hk
    refine (group_out hg (hA _ (List.getElem_mem hk)) hout).trans (List.Perm.of_eq ?_)
    rw [hg]
    simp only [List.map_map]
    rfl
  rw [h1] at h2
  have hlen : total a ops = (lanesAt gs a).length := by simpa using h2.length_eq
  rw [hlen] at h2
  exact ⟨by rw [runInc_mem, hlen], h2.symm⟩

theorem inc_exists (gs : List (Group Unit)) (m : Nat → BitVec 32) : ∃ m' out, IncExec gs m m' out := by
  refine ⟨(runInc m (incOps gs)).1, fun k l => match gs[k]? with
    | none => 0
    | some g => match lowest (g.peers 2 l) with
      | none => 0
      | some j => BitVec.ofNat 32 (g.rank 2 l) + (runInc m (incOps gs)).2 k j, incOps gs, .refl _, rfl, ?_⟩
  intro k g l hg hl ha
  obtain ⟨r, hr, -, -⟩ := exists_pos (shift := 2) hl ha
  refine ⟨_, lowest_peers (by omega), ?_⟩
  simp only [hg]
  rw [lowest_peers (by omega)]

end Verif.CudaScatter
