import Verif.Symb.Model
import Mathlib.Data.List.Induction

/-!
# C101: Evaluation of symbolic variables
-/
namespace Verif.Symb

/-! ### Specification -/

/-- Operands of a variable -/
def Op.deps : Op → List Nat
  | .leaf _ => []
  | .node ds => ds
  | .copy d => [d]
  | .arrayRead s o m => [s, o, m]
  | .arrayWrite t o v m => [t, o, v, m]
  | .coop ds => ds

/-- Specification: the value of a variable depends on a symbolic variable. -/
inductive Sym (ops : List Op) : Nat → Prop
  | leaf {i : Nat} : ops[i]? = some (.leaf true) → Sym ops i
  | dep {i d : Nat} {op : Op} : ops[i]? = some op → d ∈ op.deps → Sym ops d → Sym ops i

/-- Operands are created before they are used. -/
def Valid (ops : List Op) : Prop := ∀ (i : Nat) (op : Op), ops[i]? = some op → ∀ d ∈ op.deps, d < i

/-- The flag of an operation takes all symbolic operands into account: no operations on cooperative vectors with symbolic operands, no reads (writes) of arrays in which only the mask (the
offset) is symbolic. -/
def Covered (ops : List Op) : Op → Prop
  | .arrayRead s o m => Sym ops m → Sym ops s ∨ Sym ops o
  | .arrayWrite t o v m => Sym ops o → Sym ops t ∨ Sym ops v ∨ Sym ops m
  | .coop ds => ∀ d ∈ ds, ¬ Sym ops d
  | _ => True

/-! ### Proofs -/

theorem flags_append (ops : List Op) (op : Op) : flags (ops ++ [op]) = flags ops ++ [flagOf (flags ops) op] := by
  unfold flags
  rw [List.foldl_append]
  rfl

theorem flags_length (ops : List Op) : (flags ops).length = ops.length := by
  induction ops using List.reverseRecOn with
  | nil => rfl
  | append_singleton ops op ih => rw [flags_append, List.length_append, List.length_append, ih]; rfl

theorem get_append_left (ops : List Op) (op : Op) {i : Nat} (hi : i < ops.length) : get (flags (ops ++ [op])) i = get (flags ops) i := by
  unfold get
  rw [flags_append, List.getD_eq_getElem?_getD, List.getD_eq_getElem?_getD, List.getElem?_append_left (by rw [flags_length]; exact hi)]

theorem get_append_last (ops : List Op) (op : Op) : get (flags (ops ++ [op])) ops.length = flagOf (flags ops) op := by
  unfold get
  rw [flags_append, List.getD_eq_getElem?_getD, List.getElem?_append_right (Nat.le_of_eq (flags_length ops)), flags_length, Nat.sub_self]
  rfl

theorem Valid.left {ops : List Op} {op : Op} (h : Valid (ops ++ [op])) : Valid ops := fun i o hi => by
  have hlt : i < ops.length := (List.getElem?_eq_some_iff.1 hi).1
  exact h i o (by rw [List.getElem?_append_left hlt]; exact hi)

theorem sym_left {ops : List Op} {op : Op} (h : Valid (ops ++ [op])) {i : Nat} (hs : Sym (ops ++ [op]) i) : i < ops.length → Sym ops i := by
  induction hs with
  | leaf hi => intro hlt; exact .leaf (by rw [List.getElem?_append_left hlt] at hi; exact hi)
  | dep hi hd _ ih =>
    intro hlt
    have := h _ _ hi _ hd
    rw [List.getElem?_append_left hlt] at hi
    exact .dep hi hd (ih (by omega))

theorem sym_right {ops : List Op} (op : Op) {i : Nat} (hs : Sym ops i) : Sym (ops ++ [op]) i := by
  induction hs with
  | leaf hi => exact .leaf (by rw [List.getElem?_append_left (List.getElem?_eq_some_iff.1 hi).1]; exact hi)
  | dep hi hd _ ih => exact .dep (by rw [List.getElem?_append_left (List.getElem?_eq_some_iff.1 hi).1]; exact hi) hd ih

theorem sym_last {ops : List Op} {op : Op} (h : Valid (ops ++ [op])) : Sym (ops ++ [op]) ops.length ↔ op = .leaf true ∨ ∃ d ∈ op.deps, Sym ops d := by
  have hl : (ops ++ [op])[ops.length]? = some op := by rw [List.getElem?_append_right (Nat.le_refl _), Nat.sub_self]; rfl
  constructor
  · intro hs
    cases hs with
    | leaf hi => rw [hl] at hi; exact .inl (Option.some.inj hi)
    | dep hi hd hsd =>
      have hlt := h _ _ hi _ hd
      rw [hl] at hi
      cases hi
      exact .inr ⟨_, hd, sym_left h hsd hlt⟩
  · rintro (rfl | ⟨d, hd, hs⟩)
    · exact .leaf hl
    · exact .dep hl hd (sym_right op hs)

/-- **C101 (no spurious errors).**  Variables that do not depend on symbolic ones can be evaluated. -/
theorem C101_sound {ops : List Op} (h : Valid ops) {i : Nat} (hi : i < ops.length) (hf : evalRaises ops i = true) : Sym ops i := by
  induction ops using List.reverseRecOn generalizing i with
  | nil => exact absurd hi (Nat.not_lt_zero _)
  | append_singleton ops op ih =>
    unfold evalRaises at hf ih
    rw [List.length_append] at hi
    have hi : i < ops.length + 1 := hi
    by_cases hlt : i < ops.length
    · rw [get_append_left ops op hlt] at hf
      exact sym_right op (ih h.left hlt hf)
    · have : i = ops.length := by omega
      subst this
      rw [get_append_last] at hf
      have hl : (ops ++ [op])[ops.length]? = some op := by rw [List.getElem?_append_right (Nat.le_refl _), Nat.sub_self]; rfl
      have hd : ∀ d ∈ op.deps, get (flags ops) d = true → Sym (ops ++ [op]) ops.length := fun d hd hg =>
        (sym_last h).2 (.inr ⟨d, hd, ih h.left (h _ _ hl d hd) hg⟩)
      cases op with
      | leaf b => exact (sym_last h).2 (.inl (by rw [show b = true from hf]))
      | node ds =>
        obtain ⟨d, hm, hg⟩ := List.any_eq_true.1 (show ds.any (get (flags ops)) = true from hf)
        exact hd d hm hg
      | copy d => exact hd d List.mem_cons_self hf
      | arrayRead s o m =>
        have hf : (get (flags ops) s || get (flags ops) o) = true := hf
        rw [Bool.or_eq_true] at hf
        rcases hf with hf | hf
        · exact hd s (by simp [Op.deps]) hf
        · exact hd o (by simp [Op.deps]) hf
      | arrayWrite t o v m =>
        have hf : (get (flags ops) t || get (flags ops) v || get (flags ops) m) = true := hf
        rw [Bool.or_eq_true, Bool.or_eq_true] at hf
        rcases hf with (hf | hf) | hf
        · exact hd t (by simp [Op.deps]) hf
        · exact hd v (by simp [Op.deps]) hf
        · exact hd m (by simp [Op.deps]) hf
      | coop ds => exact absurd (show false = true from hf) (by decide)

theorem Covered.left {ops : List Op} {op o : Op} (h : Valid (ops ++ [op])) {i : Nat} (hi : ops[i]? = some o) (hc : Covered (ops ++ [op]) o) : Covered ops o := by
  have hlt : i < ops.length := (List.getElem?_eq_some_iff.1 hi).1
  have hi' : (ops ++ [op])[i]? = some o := by rw [List.getElem?_append_left hlt]; exact hi
  have hb : ∀ d ∈ o.deps, d < ops.length := fun d hd => Nat.lt_trans (h i o hi' d hd) hlt
  have L : ∀ d ∈ o.deps, Sym (ops ++ [op]) d → Sym ops d := fun d hd hs => sym_left h hs (hb d hd)
  cases o with
  | leaf b => trivial
  | node ds => trivial
  | copy d => trivial
  | arrayRead s o m => exact fun hm => (hc (sym_right op hm)).imp (L s (by simp [Op.deps])) (L o (by simp [Op.deps]))
  | arrayWrite t o v m => exact fun hm => (hc (sym_right op hm)).imp (L t (by simp [Op.deps])) (Or.imp (L v (by simp [Op.deps])) (L m (by simp [Op.deps])))
  | coop ds => exact fun d hd hs => hc d hd (sym_right op hs)

/-- **C101 (errors).**  An attempt to evaluate a variable that depends on a symbolic one raises an exception, in every program in which all operations are covered. -/
theorem C101_raises_partial {ops : List Op} (h : Valid ops) (hc : ∀ op ∈ ops, Covered ops op) {i : Nat} (hi : i < ops.length) (hs : Sym ops i) : evalRaises ops i = true := by
  induction ops using List.reverseRecOn generalizing i with
  | nil => exact absurd hi (Nat.not_lt_zero _)
  | append_singleton ops op ih =>
    have hc' : ∀ o ∈ ops, Covered ops o := fun o ho => by
      obtain ⟨j, hj⟩ := List.mem_iff_getElem?.1 ho
      exact Covered.left h hj (hc o (List.mem_append_left _ ho))
    unfold evalRaises at ih ⊢
    rw [List.length_append] at hi
    have hi : i < ops.length + 1 := hi
    by_cases hlt : i < ops.length
    · rw [get_append_left ops op hlt]
      exact ih h.left hc' hlt (sym_left h hs hlt)
    · have : i = ops.length := by omega
      subst this
      rw [get_append_last]
      have hl : (ops ++ [op])[ops.length]? = some op := by rw [List.getElem?_append_right (Nat.le_refl _), Nat.sub_self]; rfl
      have G : ∀ d ∈ op.deps, Sym ops d → get (flags ops) d = true := fun d hd hsd => ih h.left hc' (h _ _ hl d hd) hsd
      have hcop := hc op (List.mem_append_right _ List.mem_cons_self)
      have L : ∀ d ∈ op.deps, Sym (ops ++ [op]) d → Sym ops d := fun d hd hsd => sym_left h hsd (h _ _ hl d hd)
      rcases (sym_last h).1 hs with rfl | ⟨d, hd, hsd⟩
      · rfl
      · cases op with
        | leaf b => cases hd
        | node ds => exact List.any_eq_true.2 ⟨d, hd, G d hd hsd⟩
        | copy e => have : d = e := List.mem_singleton.1 hd; subst this; exact G d List.mem_cons_self hsd
        | arrayRead s o m =>
          have key : Sym ops s ∨ Sym ops o := by
            simp only [Op.deps, List.mem_cons, List.not_mem_nil, or_false] at hd
            rcases hd with rfl | rfl | rfl
            · exact .inl hsd
            · exact .inr hsd
            · exact (hcop (sym_right _ hsd)).imp (L s (by simp [Op.deps])) (L o (by simp [Op.deps]))
          show (get (flags ops) s || get (flags ops) o) = true
          rcases key with k | k
          · rw [G s (by simp [Op.deps]) k]; rfl
          · rw [G o (by simp [Op.deps]) k, Bool.or_true]
        | arrayWrite t o v m =>
          have key : Sym ops t ∨ Sym ops v ∨ Sym ops m := by
            simp only [Op.deps, List.mem_cons, List.not_mem_nil, or_false] at hd
            rcases hd with rfl | rfl | rfl | rfl
            · exact .inl hsd
            · exact (hcop (sym_right _ hsd)).imp (L t (by simp [Op.deps])) (Or.imp (L v (by simp [Op.deps])) (L m (by simp [Op.deps])))
            · exact .inr (.inl hsd)
            · exact .inr (.inr hsd)
          show (get (flags ops) t || get (flags ops) v || get (flags ops) m) = true
          rcases key with k | k | k
          · rw [G t (by simp [Op.deps]) k]; rfl
          · rw [G v (by simp [Op.deps]) k, Bool.or_true]; rfl
          · rw [G m (by simp [Op.deps]) k, Bool.or_true]
        | coop ds => exact absurd (sym_right _ hsd) (hcop d hd)

/-- **C101 fails** for cooperative vectors: a symbolic variable is packed into a vector and unpacked again; the result depends on it, but can be evaluated. -/
theorem C101_coop_counterexample : Sym [.leaf true, .coop [0], .coop [1]] 2 ∧ evalRaises [.leaf true, .coop [0], .coop [1]] 2 = false :=
  ⟨.dep (d := 1) rfl List.mem_cons_self (.dep (d := 0) rfl List.mem_cons_self (.leaf rfl)), rfl⟩

/-- **C101 fails** for local arrays: a write at a symbolic offset, and a read with a symbolic mask. -/
theorem C101_array_counterexample : (Sym [.leaf false, .leaf true, .arrayWrite 0 1 0 0] 2 ∧ evalRaises [.leaf false, .leaf true, .arrayWrite 0 1 0 0] 2 = false) ∧
    Sym [.leaf false, .leaf true, .arrayRead 0 0 1] 2 ∧ evalRaises [.leaf false, .leaf true, .arrayRead 0 0 1] 2 = false :=
  ⟨⟨.dep (d := 1) rfl (by simp [Op.deps]) (.leaf rfl), rfl⟩, .dep (d := 1) rfl (by simp [Op.deps]) (.leaf rfl), rfl⟩

/-! ### Examples -/

/-- A program in which a symbolic variable is used by way of a node and a copy -/
example : Valid [.leaf true, .leaf false, .node [0, 1], .copy 2, .node [1]] ∧ Sym [.leaf true, .leaf false, .node [0, 1], .copy 2, .node [1]] 3 ∧
    evalRaises [.leaf true, .leaf false, .node [0, 1], .copy 2, .node [1]] 3 = true ∧ evalRaises [.leaf true, .leaf false, .node [0, 1], .copy 2, .node [1]] 4 = false := by
  refine ⟨fun i op hi d hd => ?_, .dep (d := 2) rfl List.mem_cons_self (.dep (d := 0) rfl List.mem_cons_self (.leaf rfl)), rfl, rfl⟩
  match i, hi with
  | 0, hi => cases hi; cases hd
  | 1, hi => cases hi; cases hd
  | 2, hi => cases hi; simp only [Op.deps, List.mem_cons, List.not_mem_nil, or_false] at hd; omega
  | 3, hi => cases hi; simp only [Op.deps, List.mem_cons, List.not_mem_nil, or_false] at hd; omega
  | 4, hi => cases hi; simp only [Op.deps, List.mem_cons, List.not_mem_nil, or_false] at hd; omega
  | _ + 5, hi => cases hi

/-- A program that meets the hypotheses of `C101_raises_partial` and reads an array at a symbolic offset with a symbolic mask -/
example : (∀ op ∈ ([.leaf false, .leaf true, .arrayRead 0 1 1, .arrayWrite 0 1 2 1] : List Op), Covered [.leaf false, .leaf true, .arrayRead 0 1 1, .arrayWrite 0 1 2 1] op) ∧
    evalRaises [.leaf false, .leaf true, .arrayRead 0 1 1, .arrayWrite 0 1 2 1] 3 = true := by
  refine ⟨fun op h => ?_, rfl⟩
  simp only [List.mem_cons, List.not_mem_nil, or_false] at h
  rcases h with rfl | rfl | rfl | rfl
  · trivial
  · trivial
  · exact Or.inr
  · exact fun h => .inr (.inr h)

end Verif.Symb
