import Verif.LocalArr.Claim
import Mathlib.Tactic.Common

/-
Local arrays (C43): a kernel computes what its variables mean.
-/

namespace Verif.LocalArr

/-- An array that operations can access, i.e. not the storage region of a write. -/
def Version (T : Nat → Var) (v : Nat) : Prop :=
  (T v).isArray = true ∧ ((T v).kind = .array → (T v).dep0 = 0)

/-- The shape of the variables. -/
structure WF (T : Nat → Var) : Prop where
  target : ∀ v, (T v).kind.accesses = true → Version T (T v).dep0
  array : ∀ v, (T v).kind = .array → (T v).isArray = true
  init : ∀ v, (T v).kind = .init → (T v).isArray = true
  write : ∀ v, (T v).kind = .write → (T v).isArray = true
  scalarL : ∀ v, (T v).kind = .literal → (T v).isArray = false
  scalarC : ∀ v, (T v).kind = .compute → (T v).isArray = false
  scalarR : ∀ v, (T v).kind = .read → (T v).isArray = false
  storeKind : ∀ v, (T v).kind = .write →
    (T (T v).store).kind = .array ∧ (T (T v).store).dep0 ≠ 0
  storeInj : ∀ v w, (T v).kind = .write → (T w).kind = .write → (T v).store = (T w).store → v = w
  predArray : ∀ w, (T w).kind = .write → (T (T w).dep0).kind = .array →
    (T (T w).store).dep0 = (T w).dep0
  predWrite : ∀ w, (T w).kind = .write → (T (T w).dep0).kind = .write →
    (T (T w).store).dep0 = (T (T w).dep0).store
  predInit : ∀ w, (T w).kind = .write → (T (T w).dep0).kind = .init →
    (T (T (T w).dep0).dep0).kind = .array → (T (T w).store).dep0 = (T (T w).dep0).dep0
  lenW : ∀ v, (T v).kind = .write → (T v).len = (T (T v).dep0).len
  lenI : ∀ v, (T v).kind = .init → (T v).len = (T (T v).dep0).len
  evald : ∀ v, (T v).kind = .evaluated → (T v).dep0 = 0
  valueI : ∀ v, (T v).kind = .init → (T (T v).value).isArray = false

/-- The meaning of the offset of an access. -/
def offsetVal (sv : Nat → Option SVal) (v : Var) : Option SVal :=
  match v.offset with
  | some o => sv o
  | none => some (.scalar (some v.literal))

/-- A meaning has the shape of its variable. -/
def Shape (v : Var) : SVal → Prop
  | .scalar _ => v.isArray = false
  | .arr l _ => v.isArray = true ∧ l = v.len

/-- The meaning `s` of a variable follows from those of its operands. -/
def Meant (T : Nat → Var) (sv : Nat → Option SVal) (v : Nat) (s : SVal) : Prop :=
  match (T v).kind with
  | .literal => s = .scalar (some (T v).literal)
  | .evaluated => Holds (T v).data s
  | .compute => s = .scalar none ∨ ∃ xs, operands sv (T v).args = some xs ∧
      computeVal (T v).fn xs = some s
  | .array => s = createVal (T v).len
  | .init => ∃ t x, sv (T v).dep0 = some t ∧ sv (T v).value = some x ∧ initVal t x = some s
  | .write => ∃ t o x m, sv (T v).dep0 = some t ∧ offsetVal sv (T v) = some o ∧
      sv (T v).value = some x ∧ sv (T v).mask = some m ∧ writeVal t o x m = some s
  | .read => ∃ t o m, sv (T v).dep0 = some t ∧ offsetVal sv (T v) = some o ∧
      sv (T v).mask = some m ∧ readVal t o m = some s

/-- The meanings fit together. -/
def Consistent (T : Nat → Var) (sv : Nat → Option SVal) : Prop :=
  ∀ v s, sv v = some s → Meant T sv v s ∧ Shape (T v) s

section

variable {T : Nat → Var} {sv : Nat → Option SVal}

@[simp] theorem set_self {α : Type} (f : Nat → α) (i : Nat) (a : α) : set f i a i = a := by
  simp [set]
theorem set_ne {α : Type} (f : Nat → α) {i j : Nat} (a : α) (h : j ≠ i) : set f i a j = f j := by
  simp [set, h]

theorem buffer_write (h : WF T) {w : Nat} (hw : (T w).kind = .write) : buffer T w = (T w).store := by
  have hs := (h.storeKind w hw).1
  simp [buffer, bufferFrom, hw, hs]

theorem store_not_version (h : WF T) {w v : Nat} (hw : (T w).kind = .write) (hv : Version T v) :
    v ≠ (T w).store := by
  rintro rfl
  exact (h.storeKind w hw).2 (hv.2 (h.storeKind w hw).1)

/-! ### The states of the arrays -/

/-- What `touch` does to the state of an array that can be accessed. -/
theorem touch_version (h : WF T) (out : Nat → Bool) (a : Nat → AState) {v x : Nat}
    (hx : Version T x) :
    touch T out a v x = if (T v).dep0 = x then nextState (T v).kind (out v) (a x) else a x := by
  unfold touch
  by_cases hp : (T (T v).dep0).kind = .write
  · have hb := buffer_write h hp
    have hn := store_not_version h hp hx
    simp only [hp, if_true, hb]
    rw [set_ne _ _ hn]
    by_cases he : (T v).dep0 = x
    · subst he; simp
    · rw [set_ne _ _ (Ne.symm he), if_neg he]
  · simp only [hp, if_false]
    by_cases he : (T v).dep0 = x
    · subst he; simp
    · rw [set_ne _ _ (Ne.symm he), if_neg he]

/-- What `process` does to the state of an array that can be accessed and comes earlier. -/
theorem process_version (h : WF T) (out : Nat → Bool) (a : Nat → AState) {v x : Nat}
    (hx : Version T x) (hv : v ≠ x) :
    process T out a v x = if (T v).kind.accesses = true ∧ (T v).dep0 = x then
      nextState (T v).kind (out v) (a x) else a x := by
  unfold process
  cases hk : (T v).kind <;> simp only [Kind.accesses, true_and, false_and, Bool.false_eq_true, if_false]
  · exact set_ne _ _ (Ne.symm hv)
  · rw [touch_version h _ _ hx, hk, set_ne _ _ (Ne.symm hv)]
  · rw [touch_version h _ _ hx, hk, set_ne _ _ (Ne.symm hv)]
  · rw [touch_version h _ _ hx, hk]

/-- What `process` does to the state of a storage region that comes earlier. -/
theorem process_store (h : WF T) (out : Nat → Bool) (a : Nat → AState) {v x : Nat}
    (hx : (T x).kind = .write) (hv : v ≠ (T x).store) (hvx : v ≠ x) :
    process T out a v (T x).store = if (T v).kind.accesses = true ∧ (T v).dep0 = x then
      nextState (T v).kind (out v) (a x) else a (T x).store := by
  have key : ∀ a : Nat → AState, (T v).kind.accesses = true → touch T out a v (T x).store =
      if (T v).dep0 = x then nextState (T v).kind (out v) (a x) else a (T x).store := by
    intro a hacc
    unfold touch
    have hver := h.target v hacc
    have hne : (T v).dep0 ≠ (T x).store := store_not_version h hx hver
    by_cases he : (T v).dep0 = x
    · subst he
      simp [hx, buffer_write h hx]
    · rw [if_neg he]
      by_cases hp : (T (T v).dep0).kind = .write
      · simp only [hp, if_true, buffer_write h hp]
        rw [set_ne _ _ (fun hh => he (h.storeInj _ _ hp hx hh.symm)), set_ne _ _ hne.symm]
      · simp only [hp, if_false]
        rw [set_ne _ _ hne.symm]
  unfold process
  cases hk : (T v).kind <;> simp only [Kind.accesses, true_and, false_and, Bool.false_eq_true, if_false]
  · exact set_ne _ _ (Ne.symm hv)
  · rw [key _ (by simp [hk, Kind.accesses]), hk, set_ne _ _ (Ne.symm hv), set_ne _ _ (Ne.symm hvx)]
  · rw [key _ (by simp [hk, Kind.accesses]), hk, set_ne _ _ (Ne.symm hv), set_ne _ _ (Ne.symm hvx)]
  · rw [key _ (by simp [hk, Kind.accesses]), hk]

theorem nextState_conflicted (k : Kind) (o : Bool) : nextState k o .conflicted = .conflicted := by
  unfold nextState; split <;> simp

theorem nextState_after {k : Kind} {o : Bool} {s : AState} (h : s ≠ .clean) :
    nextState k o s = .conflicted := by
  unfold nextState; split <;> simp [h]

theorem nextState_modifies {k : Kind} {o : Bool} {s : AState} (h : k.modifies = true) :
    nextState k o s ≠ .clean := by
  unfold nextState; simp only [h, if_true]; split
  · simp
  · split <;> simp

/-- Conflicts stay. -/
theorem foldl_conflicted (h : WF T) (out : Nat → Bool) {x : Nat} (hx : Version T x) :
    ∀ (l : List Nat) (a : Nat → AState), x ∉ l → a x = .conflicted →
      l.foldl (process T out) a x = .conflicted
  | [], _, _, ha => ha
  | v :: l, a, hl, ha => by
    rw [List.foldl_cons]
    refine foldl_conflicted h out hx l _ (fun hh => hl (List.mem_cons_of_mem _ hh)) ?_
    rw [process_version h out a hx (fun hh => hl (hh ▸ List.mem_cons_self))]
    split
    · rw [ha]; exact nextState_conflicted _ _
    · exact ha

/-- An access to an array that has been modified is a conflict. -/
theorem foldl_access (h : WF T) (out : Nat → Bool) {x : Nat} (hx : Version T x) :
    ∀ (l : List Nat) (a : Nat → AState), x ∉ l → a x ≠ .clean →
      (∃ u ∈ l, (T u).kind.accesses = true ∧ (T u).dep0 = x) →
      l.foldl (process T out) a x = .conflicted
  | [], _, _, _, ⟨_, hu, _⟩ => by cases hu
  | v :: l, a, hl, ha, ⟨u, hu, hk, hd⟩ => by
    rw [List.foldl_cons]
    have hvx : v ≠ x := fun hh => hl (hh ▸ List.mem_cons_self)
    have hl' : x ∉ l := fun hh => hl (List.mem_cons_of_mem _ hh)
    by_cases hv : (T v).kind.accesses = true ∧ (T v).dep0 = x
    · refine foldl_conflicted h out hx l _ hl' ?_
      rw [process_version h out a hx hvx, if_pos hv]
      exact nextState_after ha
    · refine foldl_access h out hx l _ hl' ?_ ?_
      · rw [process_version h out a hx hvx, if_neg hv]; exact ha
      · rcases List.mem_cons.1 hu with rfl | hu
        · exact absurd ⟨hk, hd⟩ hv
        · exact ⟨u, hu, hk, hd⟩

/-- Without a conflict, no access follows a modification. -/
theorem last_access (h : WF T) (out : Nat → Bool) (a : Nat → AState) {x w : Nat} {l1 l2 : List Nat}
    (hx : Version T x) (hn : (l1 ++ w :: l2).Nodup) (hxl : x ∈ l1)
    (hw : (T w).kind.modifies = true) (hd : (T w).dep0 = x)
    (hc : (l1 ++ w :: l2).foldl (process T out) a x ≠ .conflicted) :
    ∀ u ∈ l2, (T u).kind.accesses = true → (T u).dep0 ≠ x := by
  intro u hu hk hud
  apply hc
  rw [List.foldl_append, List.foldl_cons]
  have hn' := List.nodup_append.1 hn
  have hx2 : x ∉ w :: l2 := fun hh => hn'.2.2 x hxl x hh rfl
  have hwx : w ≠ x := fun hh => hx2 (hh ▸ List.mem_cons_self)
  refine foldl_access h out hx l2 _ (fun hh => hx2 (List.mem_cons_of_mem _ hh)) ?_
    ⟨u, hu, hk, hud⟩
  rw [process_version h out _ hx hwx]
  have hacc : (T w).kind.accesses = true := by
    revert hw; cases (T w).kind <;> simp [Kind.modifies, Kind.accesses]
  rw [if_pos ⟨hacc, hd⟩]
  exact nextState_modifies hw

/-- The storage of a write that is accessed has the state of the write. -/
theorem foldl_store (h : WF T) (out : Nat → Bool) {x : Nat} (hx : Version T x)
    (hk : (T x).kind = .write) : ∀ (l : List Nat) (a : Nat → AState), x ∉ l → (T x).store ∉ l →
      (a x = a (T x).store ∨ ∃ u ∈ l, (T u).kind.accesses = true ∧ (T u).dep0 = x) →
      l.foldl (process T out) a x = l.foldl (process T out) a (T x).store
  | [], _, _, _, hh => by
    rcases hh with hh | ⟨_, hu, _⟩
    · exact hh
    · cases hu
  | v :: l, a, hl, hls, hh => by
    rw [List.foldl_cons]
    have hvx : v ≠ x := fun hh => hl (hh ▸ List.mem_cons_self)
    have hvs : v ≠ (T x).store := fun hh => hls (hh ▸ List.mem_cons_self)
    refine foldl_store h out hx hk l _ (fun hh => hl (List.mem_cons_of_mem _ hh))
      (fun hh => hls (List.mem_cons_of_mem _ hh)) ?_
    rw [process_version h out a hx hvx, process_store h out a hk hvs hvx]
    by_cases hv : (T v).kind.accesses = true ∧ (T v).dep0 = x
    · left; simp [hv]
    · rw [if_neg hv, if_neg hv]
      rcases hh with hh | ⟨u, hu, h1, h2⟩
      · exact .inl hh
      · rcases List.mem_cons.1 hu with rfl | hu
        · exact absurd ⟨h1, h2⟩ hv
        · exact .inr ⟨u, hu, h1, h2⟩

end

end Verif.LocalArr
