import Verif.Atomic.Ints

/-!
# Consequences of running lanes one after another

Statements about `seqRun` for each of the operations.
-/
namespace Verif.Atomic

variable {Lane V R : Type}

theorem seqRun_lanes (os : List (LaneOp Lane V R)) (a : Nat → V) : (seqRun os a).2.map Prod.fst = os.map LaneOp.lane := by
  induction os generalizing a with
  | nil => rfl
  | cons o os ih => simp only [seqRun, List.map_cons, ih]

/-- What `ret` says is what the first lane returns, and `ret` also describes the rest. -/
theorem ret_cons {o : LaneOp Lane V R} {os : List (LaneOp Lane V R)} {a : Nat → V} {ret : Lane → Option R}
    (hn : ((o :: os).map LaneOp.lane).Nodup)
    (h : ∀ y ∈ o :: os, ∃ r, ret y.lane = some r ∧ (y.lane, r) ∈ (seqRun (o :: os) a).2) :
    ret o.lane = some (o.act (a o.entry)).2 ∧
      ∀ y ∈ os, ∃ r, ret y.lane = some r ∧ (y.lane, r) ∈ (seqRun os (setEntry a o.entry (o.act (a o.entry)).1)).2 := by
  rw [List.map_cons, List.nodup_cons] at hn
  constructor
  · obtain ⟨r, h1, h2⟩ := h o (List.mem_cons_self ..)
    simp only [seqRun] at h2
    rcases List.mem_cons.1 h2 with h3 | h3
    · rw [h1]; exact congrArg (fun z => some z.2) h3
    · exfalso
      refine hn.1 ?_
      rw [← seqRun_lanes os]
      exact List.mem_map.2 ⟨_, h3, rfl⟩
  · intro y hy
    obtain ⟨r, h1, h2⟩ := h y (List.mem_cons_of_mem _ hy)
    simp only [seqRun] at h2
    rcases List.mem_cons.1 h2 with h3 | h3
    · exfalso
      refine hn.1 ?_
      exact List.mem_map.2 ⟨y, hy, congrArg Prod.fst h3⟩
    · exact ⟨r, h1, h3⟩

/-- The lanes that use an entry -/
abbrev uses (os : List (LaneOp Lane V R)) (j : Nat) : List (LaneOp Lane V R) := os.filter fun o => decide (o.entry = j)

/-- The value of an entry results from the lanes that use it. -/
theorem seqRun_uses (os : List (LaneOp Lane V R)) (a : Nat → V) (j : Nat) :
    (seqRun os a).1 j = (uses os j).foldl (fun v o => (o.act v).1) (a j) := by
  induction os generalizing a with
  | nil => rfl
  | cons o os ih =>
    simp only [seqRun, uses]
    rw [ih, List.filter_cons]
    by_cases e : o.entry = j
    · subst e
      simp only [decide_true, if_true, List.foldl_cons, setEntry]
    · simp only [decide_eq_false e, Bool.false_eq_true, if_false]
      rw [setEntry, if_neg (fun h => e h.symm)]

/-- Increments: the lanes that use an entry get consecutive numbers. -/
theorem seqRun_inc (os : List (LaneOp Lane (BitVec 32) (BitVec 32))) (ho : ∀ o ∈ os, o.act = opInc) (a : Nat → BitVec 32)
    (ret : Lane → Option (BitVec 32)) (hn : (os.map LaneOp.lane).Nodup)
    (h : ∀ y ∈ os, ∃ r, ret y.lane = some r ∧ (y.lane, r) ∈ (seqRun os a).2) (j : Nat) :
    (seqRun os a).1 j = a j + BitVec.ofNat 32 (uses os j).length ∧
    (uses os j).map (fun o => ret o.lane) = (List.range (uses os j).length).map fun m => some (a j + BitVec.ofNat 32 m) := by
  induction os generalizing a with
  | nil => simp [uses, seqRun]
  | cons o os ih =>
    obtain ⟨h1, h2⟩ := ret_cons hn h
    rw [List.map_cons, List.nodup_cons] at hn
    obtain ⟨i1, i2⟩ := ih (fun y hy => ho y (List.mem_cons_of_mem _ hy)) _ hn.2 h2
    have hact : o.act (a o.entry) = (a o.entry + 1, a o.entry) := by rw [ho o (List.mem_cons_self ..)]; rfl
    simp only [hact] at h1 i1 i2
    simp only [seqRun, uses, List.filter_cons, hact]
    rw [i1]
    by_cases e : o.entry = j
    · subst e
      simp only [setEntry, if_true, decide_true, List.length_cons, List.map_cons, h1] at i2 ⊢
      constructor
      · rw [BitVec.ofNat_add, BitVec.add_assoc, BitVec.add_comm 1]; rfl
      · rw [List.range_succ_eq_map, List.map_cons, i2, List.map_map]
        congr 1
        · simp
        · refine List.map_congr_left fun m _ => ?_
          simp only [Function.comp_apply, Nat.succ_eq_add_one, BitVec.ofNat_add, Option.some.injEq]
          rw [BitVec.add_assoc, BitVec.add_comm 1]; rfl
    · have e' : ¬ j = o.entry := fun h => e h.symm
      simp only [decide_eq_false e, Bool.false_eq_true, if_false, setEntry, if_neg e'] at i2 ⊢
      exact ⟨trivial, i2⟩

/-- Exchanges: the values that are written are those that are returned, up to the first and the last. -/
theorem seqRun_exch (os : List (LaneOp Lane V V)) (x : Lane → Option V) (ho : ∀ o ∈ os, ∃ v, x o.lane = some v ∧ o.act = opExch v)
    (a : Nat → V) (ret : Lane → Option V) (hn : (os.map LaneOp.lane).Nodup)
    (h : ∀ y ∈ os, ∃ r, ret y.lane = some r ∧ (y.lane, r) ∈ (seqRun os a).2) (j : Nat) :
    (some (a j) :: (uses os j).map fun o => x o.lane) =
      ((uses os j).map fun o => ret o.lane) ++ [some ((seqRun os a).1 j)] := by
  induction os generalizing a with
  | nil => rfl
  | cons o os ih =>
    obtain ⟨h1, h2⟩ := ret_cons hn h
    rw [List.map_cons, List.nodup_cons] at hn
    have i1 := ih (fun y hy => ho y (List.mem_cons_of_mem _ hy)) _ hn.2 h2
    obtain ⟨v, hv, hact⟩ := ho o (List.mem_cons_self ..)
    have hact' : o.act (a o.entry) = (v, a o.entry) := by rw [hact]; rfl
    simp only [hact'] at h1 i1
    simp only [seqRun, uses, List.filter_cons, hact']
    by_cases e : o.entry = j
    · subst e
      simp only [setEntry, if_true, decide_true, List.map_cons, h1, hv, List.cons_append] at i1 ⊢
      rw [i1]
    · have e' : ¬ j = o.entry := fun h => e h.symm
      simp only [decide_eq_false e, Bool.false_eq_true, if_false, setEntry, if_neg e'] at i1 ⊢
      exact i1

/-- Compare and exchange, when all lanes compare with `c` and write something else: the first lane
replaces the value, the others fail and see its value. -/
theorem seqRun_cas [DecidableEq V] (os : List (LaneOp Lane V (V × Bool))) (c : V) (x : Lane → V)
    (ho : ∀ o ∈ os, x o.lane ≠ c ∧ o.act = opCas c (x o.lane))
    (a : Nat → V) (ret : Lane → Option (V × Bool)) (hn : (os.map LaneOp.lane).Nodup)
    (h : ∀ y ∈ os, ∃ r, ret y.lane = some r ∧ (y.lane, r) ∈ (seqRun os a).2) (j : Nat) :
    (a j ≠ c → (seqRun os a).1 j = a j ∧ ∀ o ∈ uses os j, ret o.lane = some (a j, false)) ∧
    (a j = c → (uses os j = [] ∧ (seqRun os a).1 j = a j) ∨ ∃ win ∈ uses os j, (seqRun os a).1 j = x win.lane ∧ ret win.lane = some (c, true) ∧
      ∀ o ∈ uses os j, o.lane ≠ win.lane → ret o.lane = some (x win.lane, false)) := by
  induction os generalizing a with
  | nil => exact ⟨fun _ => ⟨rfl, fun o ho => (nomatch ho)⟩, fun _ => .inl ⟨rfl, rfl⟩⟩
  | cons o os ih =>
    obtain ⟨h1, h2⟩ := ret_cons hn h
    rw [List.map_cons, List.nodup_cons] at hn
    obtain ⟨i1, i2⟩ := ih (fun y hy => ho y (List.mem_cons_of_mem _ hy)) _ hn.2 h2
    obtain ⟨hx, hact⟩ := ho o (List.mem_cons_self ..)
    have hact' : o.act (a o.entry) = (if a o.entry = c then x o.lane else a o.entry, (a o.entry, decide (a o.entry = c))) := by
      rw [hact]; rfl
    simp only [hact'] at h1 i1 i2
    simp only [seqRun, uses, List.filter_cons, hact']
    by_cases e : o.entry = j
    · subst e
      simp only [setEntry, if_true, decide_true] at i1 i2 ⊢
      constructor
      · intro hc
        simp only [if_neg hc] at i1
        obtain ⟨i3, i4⟩ := i1 hc
        rw [if_neg hc]
        refine ⟨i3, fun y hy => ?_⟩
        rcases List.mem_cons.1 hy with rfl | hy
        · rw [h1, decide_eq_false hc]
        · exact i4 y hy
      · intro hc
        simp only [if_pos hc] at i1
        obtain ⟨i3, i4⟩ := i1 hx
        rw [if_pos hc]
        refine .inr ⟨o, List.mem_cons_self .., i3, ?_, fun y hy hne => ?_⟩
        · rw [h1, decide_eq_true hc, hc]
        · rcases List.mem_cons.1 hy with rfl | hy
          · exact absurd rfl hne
          · exact i4 y hy
    · have e' : ¬ j = o.entry := fun h => e h.symm
      simp only [decide_eq_false e, Bool.false_eq_true, if_false, setEntry, if_neg e'] at i1 i2 ⊢
      exact ⟨i1, i2⟩

end Verif.Atomic
