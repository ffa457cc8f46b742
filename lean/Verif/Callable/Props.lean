import Verif.Callable.Model
import Mathlib.Tactic.Common
import Mathlib.Data.List.Basic
import Mathlib.Data.List.Nodup
import Mathlib.Data.List.Perm.Basic

/-!
# C78: calls execute the code of the function that was recorded
-/
namespace Verif.Callable
variable {T : Type}

/-! ### Specification -/

/-- The kernel with the functions `fs` can be built, and every call executes the code of its functions. -/
def Correct (merge : Bool) (H : T → Nat) (fs : List (Fn T)) : Prop :=
  ∃ p, compile (assembleAll merge H ⟨0, []⟩ fs).1.map = some p ∧
    ∀ (i : Nat) (h : i < fs.length), ∃ hash, (assembleAll merge H ⟨0, []⟩ fs).2[i]? = some hash ∧
      executes (assembleAll merge H ⟨0, []⟩ fs).1.map p fs[i].single hash = some (.fn fs[i].text)

/-! ### Proofs -/

theorem insertSorted_perm (k : Key) (t : T) (m : List (Key × T)) : (insertSorted k t m).Perm ((k, t) :: m) := by
  induction m with
  | nil => exact List.Perm.refl _
  | cons a m ih =>
    obtain ⟨k', t'⟩ := a
    unfold insertSorted
    by_cases h : k.lt k' = true
    · rw [if_pos h]
    · rw [if_neg h]
      exact (List.Perm.cons _ ih).trans (List.Perm.swap _ _ _)

/-- What the functions assembled so far have left in the map: every element stems from a function, every function has an element with its key -/
structure Inv (fs : List (Fn T)) (hs : List Nat) (m : List (Key × T)) : Prop where
  len : hs.length = fs.length
  nodup : (m.map Prod.fst).Nodup
  from' : ∀ e ∈ m, ∃ (i : Nat) (f : Fn T) (h : Nat), fs[i]? = some f ∧ hs[i]? = some h ∧ e = (⟨gtype f.single, h⟩, f.text)
  has : ∀ (i : Nat) (f : Fn T) (h : Nat), fs[i]? = some f → hs[i]? = some h → (⟨gtype f.single, h⟩ : Key) ∈ m.map Prod.fst

theorem inv_step {fs : List (Fn T)} {hs : List Nat} {m : List (Key × T)} (inv : Inv fs hs m) (f : Fn T) (h : Nat) :
    Inv (fs ++ [f]) (hs ++ [h]) (emplace ⟨gtype f.single, h⟩ f.text m) := by
  have hold : ∀ (i : Nat) (f' : Fn T) (h' : Nat), fs[i]? = some f' → hs[i]? = some h' → (fs ++ [f])[i]? = some f' ∧ (hs ++ [h])[i]? = some h' := by
    intro i f' h' h1 h2
    have l1 := (List.getElem?_eq_some_iff.1 h1).1
    have l2 := (List.getElem?_eq_some_iff.1 h2).1
    rw [List.getElem?_append_left l1, List.getElem?_append_left l2]; exact ⟨h1, h2⟩
  have hnew : (fs ++ [f])[fs.length]? = some f ∧ (hs ++ [h])[fs.length]? = some h := by
    refine ⟨by simp, ?_⟩
    rw [← inv.len]; simp
  have hsplit : ∀ (i : Nat) (f' : Fn T) (h' : Nat), (fs ++ [f])[i]? = some f' → (hs ++ [h])[i]? = some h' →
      (fs[i]? = some f' ∧ hs[i]? = some h') ∨ (f' = f ∧ h' = h) := by
    intro i f' h' h1 h2
    by_cases hi : i < fs.length
    · rw [List.getElem?_append_left hi] at h1
      rw [List.getElem?_append_left (by rw [inv.len]; exact hi)] at h2
      exact Or.inl ⟨h1, h2⟩
    · rw [List.getElem?_append_right (by omega)] at h1
      rw [List.getElem?_append_right (by rw [inv.len]; omega)] at h2
      refine Or.inr ⟨?_, ?_⟩
      · have := List.mem_of_getElem? h1; simpa using this
      · have := List.mem_of_getElem? h2; simpa using this
  unfold emplace
  by_cases hk : (⟨gtype f.single, h⟩ : Key) ∈ m.map Prod.fst
  · rw [if_pos hk]
    refine ⟨by simp [inv.len], inv.nodup, ?_, ?_⟩
    · intro e he
      obtain ⟨i, f', h', h1, h2, h3⟩ := inv.from' e he
      exact ⟨i, f', h', (hold i f' h' h1 h2).1, (hold i f' h' h1 h2).2, h3⟩
    · intro i f' h' h1 h2
      rcases hsplit i f' h' h1 h2 with ⟨a, b⟩ | ⟨a, b⟩
      · exact inv.has i f' h' a b
      · rw [a, b]; exact hk
  · rw [if_neg hk]
    have hp := insertSorted_perm ⟨gtype f.single, h⟩ f.text m
    have hpk := hp.map Prod.fst
    refine ⟨by simp [inv.len], ?_, ?_, ?_⟩
    · rw [hpk.nodup_iff, List.map_cons, List.nodup_cons]; exact ⟨hk, inv.nodup⟩
    · intro e he
      rcases List.mem_cons.1 (hp.mem_iff.1 he) with h0 | h0
      · exact ⟨fs.length, f, h, hnew.1, hnew.2, h0⟩
      · obtain ⟨i, f', h', h1, h2, h3⟩ := inv.from' e h0
        exact ⟨i, f', h', (hold i f' h' h1 h2).1, (hold i f' h' h1 h2).2, h3⟩
    · intro i f' h' h1 h2
      rw [hpk.mem_iff, List.map_cons, List.mem_cons]
      rcases hsplit i f' h' h1 h2 with ⟨a, b⟩ | ⟨a, b⟩
      · exact Or.inr (inv.has i f' h' a b)
      · rw [a, b]; exact Or.inl rfl

theorem inv_all (merge : Bool) (H : T → Nat) (fs : List (Fn T)) : ∀ (s : State T) (fs0 : List (Fn T)) (hs0 : List Nat), Inv fs0 hs0 s.map →
    Inv (fs0 ++ fs) (hs0 ++ (assembleAll merge H s fs).2) (assembleAll merge H s fs).1.map := by
  induction fs with
  | nil => intro s fs0 hs0 inv; simpa [assembleAll] using inv
  | cons f fs ih =>
    intro s fs0 hs0 inv
    have := ih (assemble merge H s f) (fs0 ++ [f]) (hs0 ++ [hashOf merge H s f]) (inv_step inv f _)
    simpa [assembleAll] using this

theorem mapM_some {α β : Type} {g : α → Option β} {g' : α → β} (l : List α) (h : ∀ a ∈ l, g a = some (g' a)) : l.mapM g = some (l.map g') := by
  induction l with
  | nil => rfl
  | cons a l ih =>
    rw [List.mapM_cons, h a (by simp), ih fun b hb => h b (by simp [hb])]; rfl

/-- If functions with the same hash are the same, then all calls execute their code. -/
theorem C78_general_partial (merge : Bool) (H : T → Nat) (fs : List (Fn T))
    (hinj : ∀ (i j : Nat) (f f' : Fn T) (h : Nat), fs[i]? = some f → fs[j]? = some f' →
      (assembleAll merge H ⟨0, []⟩ fs).2[i]? = some h → (assembleAll merge H ⟨0, []⟩ fs).2[j]? = some h → f = f') :
    Correct merge H fs := by
  have inv : Inv fs (assembleAll merge H ⟨0, []⟩ fs).2 (assembleAll merge H ⟨0, []⟩ fs).1.map := by
    have := inv_all merge H fs ⟨0, []⟩ [] [] ⟨rfl, List.nodup_nil, fun e he => by simp at he, fun i f h h1 => by simp at h1⟩
    simpa using this
  unfold Correct
  revert hinj inv
  generalize (assembleAll merge H ⟨0, []⟩ fs).1.map = m
  generalize (assembleAll merge H ⟨0, []⟩ fs).2 = hs
  intro hinj inv
  -- names are unique
  have huniq : ∀ e ∈ m, ∀ e' ∈ m, e.1.hash = e'.1.hash → e = e' := by
    intro e he e' he' hh
    obtain ⟨i, f, h, h1, h2, h3⟩ := inv.from' e he
    obtain ⟨j, f', h', h1', h2', h3'⟩ := inv.from' e' he'
    have : h = h' := by rw [h3, h3'] at hh; exact hh
    subst this
    have := hinj i j f f' h h1 h1' h2 h2'
    subst this
    rw [h3, h3']
  have hmnd : m.Nodup := inv.nodup.of_map
  have hnd : (m.map fun e => e.1.hash).Nodup := by
    refine (List.nodup_map_iff_inj_on hmnd).2 ?_
    exact fun x hx y hy h => huniq x hx y hy h
  have hname : ∀ e ∈ m, named m e.1.hash = some e.2 := by
    intro e he
    unfold named
    cases hf : m.find? fun e' => decide (e'.1.hash = e.1.hash) with
    | none =>
      have := List.find?_eq_none.1 hf e he
      simp at this
    | some e' =>
      have h1 := List.mem_of_find?_eq_some hf
      have h2 := List.find?_some hf
      have := huniq e' h1 e he (by simpa using h2)
      rw [this]; rfl
  -- every function has an element with its code
  have helem : ∀ (i : Nat) (f : Fn T) (h : Nat), fs[i]? = some f → hs[i]? = some h → ((⟨gtype f.single, h⟩ : Key), f.text) ∈ m := by
    intro i f h h1 h2
    obtain ⟨e, he, hk⟩ := List.mem_map.1 (inv.has i f h h1 h2)
    obtain ⟨j, f', h', h1', h2', h3'⟩ := inv.from' e he
    have : h' = h := by
      have := congrArg Key.hash hk
      rw [h3'] at this; exact this
    subst this
    have := hinj i j f f' h' h1 h1' h2 h2'
    subst this
    rw [← h3']; exact he
  have hind : ∀ k ∈ indirects m, ∃ t, (k, t) ∈ m ∧ named m k.hash = some t := by
    intro k hk
    obtain ⟨e, he, hk'⟩ := List.mem_map.1 (List.mem_filter.1 hk).1
    subst hk'
    exact ⟨e.2, he, hname e he⟩
  have hget : ∀ (i : Nat) (hi : i < fs.length), ∃ h, hs[i]? = some h ∧ fs[i]? = some fs[i] := by
    intro i hi
    exact ⟨hs[i]'(by rw [inv.len]; exact hi), by rw [List.getElem?_eq_getElem], by rw [List.getElem?_eq_getElem]⟩
  have hsingle : ∀ (p : Prog T), p.named = named m → ∀ (i : Nat) (hi : i < fs.length) (h : Nat), hs[i]? = some h → fs[i].single = true →
      executes m p fs[i].single h = some (.fn fs[i].text) := by
    intro p hp i hi h hh hs'
    obtain ⟨_, _, hf⟩ := hget i hi
    have := hname _ (helem i _ h hf hh)
    unfold executes
    rw [if_pos hs', hp]
    simp only at this
    rw [this]; rfl
  have hindmem : ∀ (i : Nat) (hi : i < fs.length) (h : Nat), hs[i]? = some h → fs[i].single = false → (⟨.indirect, h⟩ : Key) ∈ indirects m := by
    intro i hi h hh hs'
    obtain ⟨_, _, hf⟩ := hget i hi
    have := inv.has i _ h hf hh
    rw [hs'] at this
    exact List.mem_filter.2 ⟨this, by simp⟩
  unfold compile
  rw [if_pos hnd]
  by_cases hempty : indirects m = []
  · rw [if_pos hempty]
    refine ⟨_, rfl, ?_⟩
    intro i hi
    obtain ⟨h, hh, hf⟩ := hget i hi
    refine ⟨h, hh, ?_⟩
    cases hs' : fs[i].single with
    | true => have := hsingle ⟨named m, [.kernel]⟩ rfl i hi h hh hs'; rw [hs'] at this; exact this
    | false =>
      have := hindmem i hi h hh hs'
      rw [hempty] at this; cases this
  · rw [if_neg hempty]
    have hM : ((indirects m).mapM fun k => (named m k.hash).map Sym.fn)
        = some ((indirects m).map fun k => match named m k.hash with | some t => Sym.fn t | none => .kernel) := by
      apply mapM_some
      intro k hk
      obtain ⟨t, _, ht⟩ := hind k hk
      rw [ht]; rfl
    rw [hM]
    refine ⟨_, rfl, ?_⟩
    intro i hi
    obtain ⟨h, hh, hf⟩ := hget i hi
    refine ⟨h, hh, ?_⟩
    cases hs' : fs[i].single with
    | true => rw [← hs']; exact hsingle _ rfl i hi h hh hs'
    | false =>
      have hmem := hindmem i hi h hh hs'
      have hlt := List.idxOf_lt_length_of_mem hmem
      have hnm := hname _ (helem i _ h hf hh)
      simp only at hnm
      unfold executes callableIndex
      rw [if_neg (by simp)]
      have hg : gtype false = .indirect := rfl
      simp only [hg, if_true]
      rw [show 1 + (1 + (indirects m).idxOf (⟨.indirect, h⟩ : Key)) = (indirects m).idxOf (⟨.indirect, h⟩ : Key) + 1 + 1 from by omega]
      rw [List.getElem?_cons_succ, List.getElem?_cons_succ, List.getElem?_map, List.getElem?_eq_getElem hlt, List.getElem_idxOf hlt]
      simp only [Option.map_some, hnm]

theorem hashes_merge (H : T → Nat) (fs : List (Fn T)) : ∀ s : State T, (assembleAll true H s fs).2 = fs.map fun f => H f.text := by
  induction fs with
  | nil => intro s; rfl
  | cons f fs ih => intro s; simp [assembleAll, ih, hashOf]

/-- With merging of functions: if the hash distinguishes the code of the functions of the kernel, and no function occurs both in a call with one and in a
call with several targets, the kernel can be built and every call executes the code of its functions. -/
theorem C78_merged_partial (H : T → Nat) (fs : List (Fn T)) (hH : ∀ f ∈ fs, ∀ f' ∈ fs, H f.text = H f'.text → f.text = f'.text)
    (hmix : ∀ f ∈ fs, ∀ f' ∈ fs, f.text = f'.text → f.single = f'.single) : Correct true H fs := by
  apply C78_general_partial
  intro i j f f' h h1 h2 h3 h4
  rw [hashes_merge, List.getElem?_map, h1] at h3
  rw [hashes_merge, List.getElem?_map, h2] at h4
  have hh : H f.text = H f'.text := by simp at h3 h4; rw [h3, h4]
  have m1 := List.mem_of_getElem? h1
  have m2 := List.mem_of_getElem? h2
  have ht := hH f m1 f' m2 hh
  have hs := hmix f m1 f' m2 ht
  cases f; cases f'; simp_all

theorem hashes_unmerged (H : T → Nat) (fs : List (Fn T)) (hall : ∀ f ∈ fs, f.single = false) : ∀ (s : State T) (i h : Nat),
    (assembleAll false H s fs).2[i]? = some h → h = (s.count + i) % 2 ^ 64 := by
  induction fs with
  | nil => intro s i h hi; simp [assembleAll] at hi
  | cons f fs ih =>
    intro s i h hi
    cases i with
    | zero => simp [assembleAll, hashOf] at hi; rw [← hi]; rfl
    | succ i =>
      simp only [assembleAll, List.getElem?_cons_succ] at hi
      have := ih (fun f' hf' => hall f' (by simp [hf'])) _ i h hi
      rw [this]
      simp only [assemble, hall f (by simp), Bool.false_eq_true, if_false]
      congr 1; omega

theorem length_hashes (merge : Bool) (H : T → Nat) (fs : List (Fn T)) : ∀ s : State T, (assembleAll merge H s fs).2.length = fs.length := by
  induction fs with
  | nil => intro s; rfl
  | cons f fs ih => intro s; simp [assembleAll, ih]

/-- Without merging of functions: if all calls have several targets, the kernel can be built and every call executes the code of its functions. -/
theorem C78_unmerged_partial (H : T → Nat) (fs : List (Fn T)) (hall : ∀ f ∈ fs, f.single = false) (hlen : fs.length ≤ 2 ^ 64) :
    Correct false H fs := by
  apply C78_general_partial
  intro i j f f' h h1 h2 h3 h4
  have e3 := hashes_unmerged H fs hall _ i h h3
  have e4 := hashes_unmerged H fs hall _ j h h4
  have l1 := (List.getElem?_eq_some_iff.1 h1).1
  have l2 := (List.getElem?_eq_some_iff.1 h2).1
  simp only [Nat.zero_add] at e3 e4
  rw [Nat.mod_eq_of_lt (by omega)] at e3 e4
  have : i = j := by omega
  subst this
  rw [h1] at h2
  exact Option.some.inj h2

/-- The hypotheses of the theorem for merged functions are met by a kernel in which a function is used by two calls. -/
example : Correct true (fun t : Nat => t * 7) [⟨false, 1⟩, ⟨false, 2⟩, ⟨true, 5⟩, ⟨false, 1⟩, ⟨false, 3⟩] :=
  C78_merged_partial _ _ (by intro f _ f' _ h; omega) (by decide)

/-- Without merging: two different functions that are called by calls with one target each have the same name; the second call executes the code of the
first function. -/
theorem C78_unmerged_counterexample (H : T → Nat) (t1 t2 : T) (hne : t1 ≠ t2) :
    ¬ Correct false H [⟨true, t1⟩, ⟨true, t2⟩] ∧
    ∃ p, compile (assembleAll false H ⟨0, []⟩ [⟨true, t1⟩, ⟨true, t2⟩]).1.map = some p ∧
      executes (assembleAll false H ⟨0, []⟩ [⟨true, t1⟩, ⟨true, t2⟩]).1.map p true 0 = some (.fn t1) := by
  have hm : (assembleAll false H ⟨0, []⟩ [⟨true, t1⟩, ⟨true, t2⟩]).1.map = [(⟨.callable, 0⟩, t1)] := by
    simp [assembleAll, assemble, hashOf, gtype, emplace, insertSorted]
  have hh : (assembleAll false H ⟨0, []⟩ [⟨true, t1⟩, ⟨true, t2⟩]).2 = [0, 0] := by simp [assembleAll, assemble, hashOf]
  have hc : compile [((⟨.callable, 0⟩ : Key), t1)] = some ⟨named [(⟨.callable, 0⟩, t1)], [.kernel]⟩ := by simp [compile, indirects]
  constructor
  · rintro ⟨p, hp, hall⟩
    rw [hm, hc] at hp
    obtain ⟨h, h1, h2⟩ := hall 1 (by simp)
    rw [hh] at h1
    rw [hm, ← Option.some.inj hp] at h2
    simp at h1
    subst h1
    simp [executes, named] at h2
    exact hne h2
  · rw [hm, hc]
    exact ⟨_, rfl, by simp [executes, named]⟩

/-- Without merging: a kernel with a call with one target and a later call with two targets defines a name twice, and cannot be built. -/
theorem C78_unmerged_name_counterexample (H : T → Nat) (t1 t2 t3 : T) :
    compile (assembleAll false H ⟨0, []⟩ [⟨true, t1⟩, ⟨false, t2⟩, ⟨false, t3⟩]).1.map = none := by
  simp [assembleAll, assemble, hashOf, gtype, emplace, insertSorted, Key.lt, compile]

/-- With merging, whatever the hash: a kernel in which the same function is the only target of one call, and one of two targets of another call, defines a
name twice, and cannot be built. -/
theorem C78_merged_name_counterexample (H : T → Nat) (t1 t2 : T) (hne : H t1 ≠ H t2) :
    compile (assembleAll true H ⟨0, []⟩ [⟨true, t1⟩, ⟨false, t1⟩, ⟨false, t2⟩]).1.map = none := by
  have h' : H t2 ≠ H t1 := fun h => hne h.symm
  by_cases hlt : H t2 < H t1 <;>
    simp [assembleAll, assemble, hashOf, gtype, emplace, insertSorted, Key.lt, compile, hlt, hne, h']

end Verif.Callable
