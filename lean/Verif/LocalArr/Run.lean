import Verif.LocalArr.Kernel

/-
Local arrays (C43): the code of a kernel.
-/

namespace Verif.LocalArr

section

variable {T : Nat → Var} {sv : Nat → Option SVal}

/-! ### Registers -/

theorem alloc_append (a : Nat → AState) : ∀ (l1 l2 : List Nat) (r : Nat → Nat),
    (∀ u ∈ l1, isDecl (T u) = true) →
    allocRegs T a (l1 ++ l2) r = allocRegs T a l2 (allocRegs T a l1 r)
  | [], _, _, _ => rfl
  | u :: l1, l2, r, h => by
    have hu := h u List.mem_cons_self
    simp only [List.cons_append, allocRegs, hu, if_true]
    exact alloc_append a l1 l2 _ fun w hw => h w (List.mem_cons_of_mem _ hw)

theorem alloc_notin (a : Nat → AState) : ∀ (l : List Nat) (r : Nat → Nat) (v : Nat), v ∉ l →
    allocRegs T a l r v = r v
  | [], _, _, _ => rfl
  | u :: l, r, v, h => by
    unfold allocRegs
    split
    · rw [alloc_notin a l _ v fun hh => h (List.mem_cons_of_mem _ hh)]
      exact set_ne _ _ fun hh => h (hh ▸ List.mem_cons_self)
    · rfl

/-- The register of an array declaration. -/
theorem alloc_eq (h : WF T) {l : List Nat} (hs : Sched T l) (a : Nat → AState) {v : Nat} (hv : v ∈ l)
    (hd : isDecl (T v) = true) :
    allocRegs T a l id v = allocReg T a (allocRegs T a l id) v := by
  obtain ⟨l1, l2, rfl⟩ := List.append_of_mem hv
  have h1 := hs.first l1 v l2 rfl hd
  have hn := List.nodup_append.1 hs.nodup
  have hv2 : v ∉ l2 := (List.nodup_cons.1 hn.2.1).1
  have e : allocRegs T a (l1 ++ v :: l2) id =
      allocRegs T a l2 (set (allocRegs T a l1 id) v (allocReg T a (allocRegs T a l1 id) v)) := by
    rw [alloc_append a l1 _ _ h1]
    show allocRegs T a (v :: l2) _ = _
    rw [allocRegs, if_pos hd]
  rw [e, alloc_notin a l2 _ v hv2, set_self]
  unfold allocReg
  by_cases hp : (T v).dep0 ≠ 0 ∧ a (T v).dep0 ≠ .conflicted
  · rw [if_pos hp, if_pos hp]
    have hk : (T v).kind = .array := by
      by_contra hne
      have : (T v).kind = .evaluated := by
        unfold isDecl at hd
        cases hk : (T v).kind <;> simp_all
      exact hp.1 (h.evald v this)
    have hmem : (T v).dep0 ∈ l1 := hs.closed l1 v l2 rfl _ (by simp [deps, hk, hp.1])
    have hne : ∀ x ∈ v :: l2, (T v).dep0 ≠ x := fun x hx => hn.2.2 _ hmem x hx
    rw [alloc_notin a l2 _ _ fun hh => hne _ (List.mem_cons_of_mem _ hh) rfl,
      set_ne _ _ (hne v List.mem_cons_self)]
  · rw [if_neg hp, if_neg hp]

theorem alloc_root (h : WF T) {l : List Nat} (hs : Sched T l) (a : Nat → AState) {v : Nat} (hv : v ∈ l)
    (hd : isDecl (T v) = true) (hver : Version T v) : allocRegs T a l id v = v := by
  rw [alloc_eq h hs a hv hd, allocReg, if_neg]
  rintro ⟨h0, _⟩
  apply h0
  by_cases hk : (T v).kind = .array
  · exact hver.2 hk
  · apply h.evald
    unfold isDecl at hd
    cases hk : (T v).kind <;> simp_all

theorem alloc_fresh (h : WF T) {l : List Nat} (hs : Sched T l) (a : Nat → AState) {v : Nat}
    (hv : v ∈ l) (hd : isDecl (T v) = true) (hc : a (T v).dep0 = .conflicted) :
    allocRegs T a l id v = v := by
  rw [alloc_eq h hs a hv hd, allocReg, if_neg]
  rintro ⟨_, h0⟩
  exact h0 hc

/-! ### The invariant -/

/-- An array that has been computed and is still accessed. -/
def Live (T : Nat → Var) (done todo : List Nat) (v : Nat) : Prop :=
  v ∈ done ∧ Version T v ∧ ∃ u ∈ todo, (T u).kind.accesses = true ∧ (T u).dep0 = v

/-- The elements of a local memory are those of an array. -/
def Agrees (sv : Nat → Option SVal) (v : Nat) (m : Nat → Nat) : Prop :=
  ∀ l c, sv v = some (.arr l c) → ∀ i, i < l → ∀ y, c i = some y → m i = y

/-- Scalars have been computed; every array that is still accessed has a local memory of its own. -/
structure Inv (T : Nat → Var) (sv : Nat → Option SVal) (R : Nat → Nat) (done todo : List Nat) (k : K) :
    Prop where
  scal : ∀ v ∈ done, ∀ x, sv v = some (.scalar (some x)) → k.env v = x
  regd : ∀ v, isDecl (T v) = true → k.reg v = R v
  cont : ∀ v, Live T done todo v → Agrees sv v (k.mem (k.reg v))
  sep : ∀ u v, Live T done todo u → Live T done todo v → u ≠ v → k.reg u ≠ k.reg v
  dom : ∀ v, Live T done todo v → k.reg v ∈ done
  own : ∀ v, Live T done todo v → ∀ w ∈ todo, (T w).kind = .write → k.reg v ≠ (T w).store
  ini : ∀ v ∈ done, (T v).kind = .init → k.reg v = R (T v).dep0

theorem Live.back {done todo : List Nat} {v u : Nat} (h : Live T (done ++ [v]) todo u) (hn : u ≠ v) :
    Live T done (v :: todo) u := by
  obtain ⟨h1, h2, w, hw, h3⟩ := h
  refine ⟨?_, h2, w, List.mem_cons_of_mem _ hw, h3⟩
  rcases List.mem_append.1 h1 with h | h
  · exact h
  · exact absurd (List.mem_singleton.1 h) hn

/-- A step that computes a number. -/
theorem Inv.scalar (h : WF T) {R : Nat → Nat} {done todo : List Nat} {k : K} {v : Nat}
    (I : Inv T sv R done (v :: todo) k) (hv : v ∉ done) (ha : (T v).isArray = false) (x : Nat)
    (hx : ∀ y, sv v = some (.scalar (some y)) → x = y) :
    Inv T sv R (done ++ [v]) todo { k with env := set k.env v x } := by
  have hne : ∀ u, Live T (done ++ [v]) todo u → u ≠ v := by
    rintro u ⟨_, h2, _⟩ rfl
    rw [h2.1] at ha; cases ha
  refine ⟨?_, I.regd, ?_, ?_, ?_, ?_, ?_⟩
  · intro u hu y hy
    by_cases he : u = v
    · subst he; simp only [set_self]; exact hx y hy
    · simp only []
      rw [set_ne _ _ he]
      refine I.scal u ?_ y hy
      rcases List.mem_append.1 hu with h | h
      · exact h
      · exact absurd (List.mem_singleton.1 h) he
  · intro u hu; exact I.cont u (hu.back (hne u hu))
  · intro u w hu hw; exact I.sep u w (hu.back (hne u hu)) (hw.back (hne w hw))
  · intro u hu; exact List.mem_append_left _ (I.dom u (hu.back (hne u hu)))
  · intro u hu w hw; exact I.own u (hu.back (hne u hu)) w (List.mem_cons_of_mem _ hw)
  · intro u hu hk
    rcases List.mem_append.1 hu with hh | hh
    · exact I.ini u hh hk
    · rw [List.mem_singleton.1 hh] at hk
      rw [h.init v hk] at ha; cases ha

/-- A step that makes an array. -/
theorem Inv.array {R : Nat → Nat} {done todo : List Nat} {k k1 : K} {v r : Nat}
    (I : Inv T sv R done (v :: todo) k) (ha : ∀ x, sv v ≠ some (.scalar x))
    (henv : k1.env = k.env) (hreg : ∀ u, u ≠ v → k1.reg u = k.reg u)
    (hmem : ∀ q, q ≠ r → k1.mem q = k.mem q) (hr : k1.reg v = r)
    (hd : isDecl (T v) = true → r = R v) (hdom : r ∈ done ++ [v])
    (hsep : ∀ u, Live T (done ++ [v]) todo u → u ≠ v → k.reg u ≠ r)
    (hown : ∀ w ∈ todo, (T w).kind = .write → r ≠ (T w).store)
    (hini : (T v).kind = .init → r = R (T v).dep0)
    (hcont : Agrees sv v (k1.mem r)) : Inv T sv R (done ++ [v]) todo k1 := by
  refine ⟨?_, ?_, ?_, ?_, ?_, ?_, ?_⟩
  · intro u hu y hy
    rw [henv]
    rcases List.mem_append.1 hu with h | h
    · exact I.scal u h y hy
    · rw [List.mem_singleton.1 h] at hy; exact absurd hy (ha _)
  · intro u hu
    by_cases he : u = v
    · rw [he, hr]; exact hd (he ▸ hu)
    · rw [hreg u he]; exact I.regd u hu
  · intro u hu
    by_cases he : u = v
    · rw [he, hr]; exact hcont
    · rw [hreg u he, hmem _ (hsep u hu he)]; exact I.cont u (hu.back he)
  · intro u w hu hw hne
    by_cases he : u = v
    · subst he
      rw [hr, hreg w (Ne.symm hne)]; exact (hsep w hw (Ne.symm hne)).symm
    · by_cases hf : w = v
      · subst hf; rw [hr, hreg u he]; exact hsep u hu he
      · rw [hreg u he, hreg w hf]; exact I.sep u w (hu.back he) (hw.back hf) hne
  · intro u hu
    by_cases he : u = v
    · rw [he, hr]; exact hdom
    · rw [hreg u he]; exact List.mem_append_left _ (I.dom u (hu.back he))
  · intro u hu w hw hk
    by_cases he : u = v
    · rw [he, hr]; exact hown w hw hk
    · rw [hreg u he]; exact I.own u (hu.back he) w (List.mem_cons_of_mem _ hw) hk
  · intro u hu hk
    by_cases he : u = v
    · rw [he, hr]; exact hini (he ▸ hk)
    · rw [hreg u he]
      rcases List.mem_append.1 hu with hh | hh
      · exact I.ini u hh hk
      · exact absurd (List.mem_singleton.1 hh) he

/-- A step that declares a storage region. -/
theorem Inv.storage (h : WF T) {R : Nat → Nat} {done todo : List Nat} {k : K} {v : Nat}
    (I : Inv T sv R done (v :: todo) k) (ha : ∀ x, sv v ≠ some (.scalar x)) (hv : ¬ Version T v) :
    Inv T sv R (done ++ [v]) todo k := by
  have hne : ∀ u, Live T (done ++ [v]) todo u → u ≠ v := by
    rintro u ⟨_, h2, _⟩ rfl
    exact hv h2
  refine ⟨?_, I.regd, ?_, ?_, ?_, ?_, ?_⟩
  · intro u hu y hy
    rcases List.mem_append.1 hu with h | h
    · exact I.scal u h y hy
    · rw [List.mem_singleton.1 h] at hy; exact absurd hy (ha _)
  · intro u hu; exact I.cont u (hu.back (hne u hu))
  · intro u w hu hw; exact I.sep u w (hu.back (hne u hu)) (hw.back (hne w hw))
  · intro u hu; exact List.mem_append_left _ (I.dom u (hu.back (hne u hu)))
  · intro u hu w hw; exact I.own u (hu.back (hne u hu)) w (List.mem_cons_of_mem _ hw)
  · intro u hu hk
    rcases List.mem_append.1 hu with hh | hh
    · exact I.ini u hh hk
    · rw [List.mem_singleton.1 hh] at hk
      exact absurd ⟨h.init v hk, fun h2 => by rw [hk] at h2; cases h2⟩ hv

/-! ### Operands -/

/-- The numbers computed so far are those of the operands. -/
theorem args_eq {done : List Nat} {env : Nat → Nat}
    (h : ∀ v ∈ done, ∀ x, sv v = some (.scalar (some x)) → env v = x) :
    ∀ (args : List Nat) (xs : List SVal) (ys : List (Option Nat)) (zs : List Nat),
      (∀ a ∈ args, a ∈ done) → operands sv args = some xs → scalars xs = some ys →
      determined ys = some zs → args.map env = zs
  | [], xs, ys, zs, _, h1, h2, h3 => by
    simp only [operands, Option.some.injEq] at h1; subst h1
    simp only [scalars, Option.some.injEq] at h2; subst h2
    simp only [determined, Option.some.injEq] at h3; subst h3; rfl
  | a :: args, xs, ys, zs, hd, h1, h2, h3 => by
    simp only [operands, Option.bind_eq_some_iff, Option.map_eq_some_iff] at h1
    obtain ⟨x, hx, xs', hxs, rfl⟩ := h1
    cases x with
    | arr l c => simp [scalars] at h2
    | scalar x =>
      simp only [scalars, Option.map_eq_some_iff] at h2
      obtain ⟨ys', hys, rfl⟩ := h2
      cases x with
      | none => simp [determined] at h3
      | some x =>
        simp only [determined, Option.map_eq_some_iff] at h3
        obtain ⟨zs', hzs, rfl⟩ := h3
        rw [List.map_cons, h a (hd a List.mem_cons_self) x hx,
          args_eq h args xs' ys' zs' (fun b hb => hd b (List.mem_cons_of_mem _ hb)) hxs hys hzs]

/-- The offset of an access. -/
theorem offset_eq {k : K} {done : List Nat} {v : Var}
    (h : ∀ v ∈ done, ∀ x, sv v = some (.scalar (some x)) → k.env v = x)
    (hd : ∀ o ∈ v.offset.toList, o ∈ done) {x : Nat}
    (hx : offsetVal sv v = some (.scalar (some x))) : offsetOf k v = x := by
  unfold offsetVal at hx
  unfold offsetOf
  cases ho : v.offset with
  | none => simp only [ho, Option.some.injEq, SVal.scalar.injEq] at hx; simpa [ho] using hx
  | some o =>
    simp only [ho] at hx ⊢
    exact h o (hd o (by simp [ho])) x hx

end

end Verif.LocalArr
