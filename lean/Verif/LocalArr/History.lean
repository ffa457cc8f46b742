import Verif.LocalArr.Step

/-
Local arrays (C43): calls and evaluations keep the variables in order.
-/

namespace Verif.LocalArr

/-- The shape of one variable. -/
structure WFv (T : Nat → Var) (v : Nat) : Prop where
  target : (T v).kind.accesses = true → Version T (T v).dep0
  array : (T v).kind = .array → (T v).isArray = true
  init : (T v).kind = .init → (T v).isArray = true
  write : (T v).kind = .write → (T v).isArray = true
  scalarL : (T v).kind = .literal → (T v).isArray = false
  scalarC : (T v).kind = .compute → (T v).isArray = false
  scalarR : (T v).kind = .read → (T v).isArray = false
  storeKind : (T v).kind = .write →
    (T (T v).store).kind = .array ∧ (T (T v).store).dep0 ≠ 0
  predArray : (T v).kind = .write → (T (T v).dep0).kind = .array →
    (T (T v).store).dep0 = (T v).dep0
  predWrite : (T v).kind = .write → (T (T v).dep0).kind = .write →
    (T (T v).store).dep0 = (T (T v).dep0).store
  predInit : (T v).kind = .write → (T (T v).dep0).kind = .init →
    (T (T (T v).dep0).dep0).kind = .array → (T (T v).store).dep0 = (T (T v).dep0).dep0
  lenW : (T v).kind = .write → (T v).len = (T (T v).dep0).len
  lenI : (T v).kind = .init → (T v).len = (T (T v).dep0).len
  evald : (T v).kind = .evaluated → (T v).dep0 = 0
  valueI : (T v).kind = .init → (T (T v).value).isArray = false

theorem WF.at {T : Nat → Var} (h : WF T) (v : Nat) : WFv T v :=
  ⟨h.target v, h.array v, h.init v, h.write v, h.scalarL v, h.scalarC v, h.scalarR v, h.storeKind v,
    h.predArray v, h.predWrite v, h.predInit v, h.lenW v, h.lenI v, h.evald v, h.valueI v⟩

theorem WF.of {T : Nat → Var} (h : ∀ v, WFv T v)
    (hi : ∀ v w, (T v).kind = .write → (T w).kind = .write → (T v).store = (T w).store → v = w) :
    WF T :=
  ⟨fun v => (h v).target, fun v => (h v).array, fun v => (h v).init, fun v => (h v).write,
    fun v => (h v).scalarL, fun v => (h v).scalarC, fun v => (h v).scalarR, fun v => (h v).storeKind,
    hi, fun v => (h v).predArray, fun v => (h v).predWrite, fun v => (h v).predInit,
    fun v => (h v).lenW, fun v => (h v).lenI, fun v => (h v).evald,
    fun v => (h v).valueI⟩

/-- All variables to which a variable refers. -/
def refs (v : Var) : List Nat :=
  v.dep0 :: v.value :: v.mask :: v.store :: (v.offset.toList ++ v.args)

/-- The shape of a variable only depends on the variables to which it refers. -/
theorem WFv.congr {T T' : Nat → Var} {n v : Nat} (h : WFv T v) (he : ∀ u, u < n → T' u = T u)
    (hb : ∀ u, u < n → ∀ d ∈ refs (T u), d < n) (hv : v < n) : WFv T' v := by
  have ev := he v hv
  have h0 : (T v).dep0 < n := hb v hv _ (by simp [refs])
  have h1 : (T v).store < n := hb v hv _ (by simp [refs])
  have h2 : (T (T v).dep0).dep0 < n := hb _ h0 _ (by simp [refs])
  have e0 := he _ h0
  have e1 := he _ h1
  have e2 := he _ h2
  constructor
  · rw [ev]; intro hh; have := h.target hh; unfold Version at *; rw [e0]; exact this
  · rw [ev]; exact h.array
  · rw [ev]; exact h.init
  · rw [ev]; exact h.write
  · rw [ev]; exact h.scalarL
  · rw [ev]; exact h.scalarC
  · rw [ev]; exact h.scalarR
  · rw [ev, e1]; exact h.storeKind
  · rw [ev, e0, e1]; exact h.predArray
  · rw [ev, e0, e1]; exact h.predWrite
  · rw [ev, e0, e1, e2]; exact h.predInit
  · rw [ev, e0]; exact h.lenW
  · rw [ev, e0]; exact h.lenI
  · rw [ev]; exact h.evald
  · have h3 : (T v).value < n := hb v hv _ (by simp [refs])
    rw [ev, he _ h3]; exact h.valueI

theorem wfv_literal {T : Nat → Var} {v : Nat} (hk : (T v).kind = .literal)
    (ha : (T v).isArray = false) : WFv T v := by
  constructor <;> simp_all [Kind.accesses]

theorem operands_congr {sv sv' : Nat → Option SVal} {l : List Nat} (h : ∀ a ∈ l, sv' a = sv a) :
    operands sv' l = operands sv l := by
  induction l with
  | nil => rfl
  | cons a l ih =>
    simp only [operands]
    rw [h a List.mem_cons_self, ih fun b hb => h b (List.mem_cons_of_mem _ hb)]

/-- So does its meaning. -/
theorem Meant.congr {T T' : Nat → Var} {sv sv' : Nat → Option SVal} {v : Nat} {s : SVal}
    (h : Meant T sv v s) (he : T' v = T v) (hs : ∀ d ∈ refs (T v), sv' d = sv d) : Meant T' sv' v s := by
  unfold Meant at *
  rw [he]
  have h0 : sv' (T v).dep0 = sv (T v).dep0 := hs _ (by simp [refs])
  have h1 : sv' (T v).value = sv (T v).value := hs _ (by simp [refs])
  have h2 : sv' (T v).mask = sv (T v).mask := hs _ (by simp [refs])
  have h3 : offsetVal sv' (T v) = offsetVal sv (T v) := by
    unfold offsetVal
    cases ho : (T v).offset with
    | none => rfl
    | some o => exact hs o (by simp [refs, ho])
  have h4 : operands sv' (T v).args = operands sv (T v).args :=
    operands_congr fun a ha => hs a (by simp [refs, ha])
  cases hk : (T v).kind <;> simp only [hk] at h ⊢
  · exact h
  · exact h
  · rw [h4]; exact h
  · exact h
  · rw [h0, h1]; exact h
  · rw [h0, h1, h2, h3]; exact h
  · rw [h0, h2, h3]; exact h

/-- Where calls and evaluations lead: the variables are in order, and `sv` gives their meanings. -/
structure HInv (s : State) (ms : List (Option SVal)) (sv : Nat → Option SVal) : Prop where
  wf : WF s.vars
  pos : 1 ≤ s.next
  fresh : ∀ v, s.next ≤ v → s.vars v = {}
  zero : s.vars 0 = {}
  bound : ∀ v, v < s.next → ∀ d ∈ refs (s.vars v), d < s.next
  cons : Consistent s.vars sv
  beyond : ∀ v, s.next ≤ v → sv v = none
  none0 : sv 0 = none
  arr : ∀ v, (s.vars v).kind = .array → sv v ≠ none
  len : s.handles.length = ms.length
  hb : ∀ k, s.idx k < s.next
  hv : ∀ k, (s.vars (s.idx k)).kind = .array → (s.vars (s.idx k)).dep0 = 0
  hm : ∀ k x, s.idx k ≠ 0 → ms.getD k none = some x → sv (s.idx k) = some x

theorem HInv.start : HInv {} [] (fun _ => none) := by
  refine ⟨?_, by simp, by simp, rfl, ?_, ?_, by simp, rfl, ?_, rfl, ?_, ?_, ?_⟩
  · exact WF.of (fun v => wfv_literal rfl rfl) (fun v w h => by cases h)
  · intro v hv d hd
    simp [refs] at hd
    rcases hd with rfl <;> simp
  · intro v s hs; cases hs
  · intro v hv; cases hv
  · intro k; simp [State.idx]
  · intro k hk; cases hk
  · intro k x hk; simp [State.idx] at hk

/-- A call returns the variable `i` (or nothing, if `i = 0`). -/
def State.ret (s : State) (i : Nat) : State := { s with handles := s.handles ++ [i] }

theorem idx_ret (s : State) (i k : Nat) :
    (s.ret i).idx k = if k = s.handles.length then i else s.idx k := by
  unfold State.idx State.ret
  simp only [List.getD_eq_getElem?_getD, List.getElem?_append]
  by_cases h : k < s.handles.length
  · rw [if_pos h, if_neg (by omega)]
  · rw [if_neg h]
    by_cases he : k = s.handles.length
    · rw [if_pos he, he]; simp
    · rw [if_neg he]
      have : k - s.handles.length ≠ 0 := by omega
      rw [List.getElem?_eq_none (by simp; omega), List.getElem?_eq_none (by omega)]

theorem getD_snoc (ms : List (Option SVal)) (x : Option SVal) (k : Nat) :
    (ms ++ [x]).getD k none = if k = ms.length then x else ms.getD k none := by
  simp only [List.getD_eq_getElem?_getD, List.getElem?_append]
  by_cases h : k < ms.length
  · rw [if_pos h, if_neg (by omega)]
  · rw [if_neg h]
    by_cases he : k = ms.length
    · rw [if_pos he, he]; simp
    · rw [if_neg he]
      rw [List.getElem?_eq_none (by simp; omega), List.getElem?_eq_none (by omega)]

/-- Returning a variable that exists. -/
theorem HInv.ret {s : State} {ms : List (Option SVal)} {sv : Nat → Option SVal} (H : HInv s ms sv)
    {i : Nat} {x : Option SVal} (hi : i < s.next)
    (hv : (s.vars i).kind = .array → (s.vars i).dep0 = 0)
    (hx : i ≠ 0 → ∀ y, x = some y → sv i = some y) : HInv (s.ret i) (ms ++ [x]) sv := by
  refine ⟨H.wf, H.pos, H.fresh, H.zero, H.bound, H.cons, H.beyond, H.none0, H.arr, ?_, ?_, ?_, ?_⟩
  · simp [State.ret, H.len]
  · intro k
    rw [idx_ret]
    split
    · exact hi
    · exact H.hb k
  · intro k
    rw [idx_ret]
    split
    · exact hv
    · exact H.hv k
  · intro k y
    rw [idx_ret, getD_snoc, ← H.len]
    split
    · exact fun h0 hy => hx h0 y hy
    · exact H.hm k y

/-- Nothing is returned. -/
theorem HInv.ret0 {s : State} {ms : List (Option SVal)} {sv : Nat → Option SVal} (H : HInv s ms sv)
    (x : Option SVal) : HInv (s.ret 0) (ms ++ [x]) sv :=
  H.ret H.pos (fun h => by rw [H.zero] at h; cases h) (fun h => absurd rfl h)

/-- Add a variable. -/
theorem HInv.new {s : State} {ms : List (Option SVal)} {sv : Nat → Option SVal} (H : HInv s ms sv)
    (v : Var) (x : Option SVal) (hr : ∀ d ∈ refs v, d < s.next)
    (hw : v.kind ≠ .write)
    (hwf : WFv (set s.vars s.next v) s.next)
    (hme : ∀ y, x = some y → Meant (set s.vars s.next v) (set sv s.next x) s.next y ∧ Shape v y)
    (harr : v.kind = .array → x ≠ none) :
    HInv (s.new v).1 ms (set sv s.next x) := by
  have hold : ∀ u, u < s.next → set s.vars s.next v u = s.vars u := fun u hu => set_ne _ _ (by omega)
  have hnew : ∀ u, s.next + 1 ≤ u → set s.vars s.next v u = {} := fun u hu => by
    rw [set_ne _ _ (by omega)]; exact H.fresh u (by omega)
  have hne0 : s.next ≠ 0 := by have := H.pos; omega
  have hsv : ∀ u, u < s.next → set sv s.next x u = sv u := fun u hu => set_ne _ _ (by omega)
  refine ⟨WF.of ?_ ?_, ?_, ?_, ?_, ?_, ?_, ?_, ?_, ?_, H.len, ?_, ?_, ?_⟩
  · intro u
    rcases Nat.lt_trichotomy u s.next with h | h | h
    · exact (H.wf.at u).congr hold H.bound h
    · subst h; exact hwf
    · exact wfv_literal (by simp [State.new, hnew u h]) (by simp [State.new, hnew u h])
  · intro a b ha hb hab
    simp only [State.new] at ha hb hab
    have h1 : ∀ u, (set s.vars s.next v u).kind = .write → u < s.next := by
      intro u hu
      rcases Nat.lt_trichotomy u s.next with h | h | h
      · exact h
      · subst h; rw [set_self] at hu; exact absurd hu hw
      · rw [hnew u h] at hu; cases hu
    have ea := hold a (h1 a ha)
    have eb := hold b (h1 b hb)
    rw [ea] at ha hab
    rw [eb] at hb hab
    exact H.wf.storeInj a b ha hb hab
  · simp [State.new]
  · intro u hu; exact hnew u hu
  · simp only [State.new]; rw [set_ne _ _ (Ne.symm hne0)]; exact H.zero
  · intro u hu d hd
    simp only [State.new] at hu hd ⊢
    rcases Nat.lt_or_eq_of_le (Nat.le_of_lt_succ hu) with h | h
    · rw [hold u h] at hd; exact Nat.lt_succ_of_lt (H.bound u h d hd)
    · subst h; rw [set_self] at hd; exact Nat.lt_succ_of_lt (hr d hd)
  · intro u y hy
    simp only [State.new]
    rcases Nat.lt_trichotomy u s.next with h | h | h
    · rw [hsv u h] at hy
      obtain ⟨h1, h2⟩ := H.cons u y hy
      rw [hold u h]
      exact ⟨h1.congr (hold u h) fun d hd => hsv d (H.bound u h d hd), h2⟩
    · subst h
      rw [set_self] at hy
      rw [set_self]
      exact hme y hy
    · rw [set_ne _ _ (by omega)] at hy
      rw [H.beyond u (by omega)] at hy; cases hy
  · intro u hu
    simp only [State.new] at hu
    rw [set_ne _ _ (by omega)]; exact H.beyond u (by omega)
  · rw [set_ne _ _ (Ne.symm hne0)]; exact H.none0
  · intro u hu
    simp only [State.new] at hu
    by_cases h : u = s.next
    · subst h; rw [set_self] at hu ⊢; exact harr hu
    · rw [set_ne _ _ h] at hu ⊢; exact H.arr u hu
  · intro k
    have := H.hb k
    simp only [State.new, State.idx] at this ⊢; omega
  · intro k hk
    have hb := H.hb k
    simp only [State.new, State.idx] at hk hb ⊢
    rw [hold _ hb] at hk ⊢
    exact H.hv k hk
  · intro k y h0 hy
    have hb := H.hb k
    simp only [State.new, State.idx] at h0 hb ⊢
    rw [hsv _ hb]
    exact H.hm k y h0 hy

/-- Add a variable that is returned. -/
theorem HInv.newRet {s : State} {ms : List (Option SVal)} {sv : Nat → Option SVal} (H : HInv s ms sv)
    (v : Var) (x : Option SVal) (hr : ∀ d ∈ refs v, d < s.next)
    (hw : v.kind ≠ .write)
    (hwf : WFv (set s.vars s.next v) s.next)
    (hme : ∀ y, x = some y → Meant (set s.vars s.next v) (set sv s.next x) s.next y ∧ Shape v y)
    (harr : v.kind = .array → x ≠ none ∧ v.dep0 = 0) :
    ∃ sv', HInv ((s.new v).1.ret (s.new v).2) (ms ++ [x]) sv' := by
  refine ⟨_, (H.new v x hr hw hwf hme fun h => (harr h).1).ret (i := s.next) ?_ ?_ ?_⟩
  · simp [State.new]
  · simp only [State.new, set_self]; exact fun h => (harr h).2
  · intro _ y hy; rw [set_self]; exact hy

theorem call_some {s s' : State} {op : Op} {i : Nat} (h : callOn s op = some (s', i))
    (hh : s'.handles = s.handles) : call s op = s'.ret i := by
  simp [call, h, State.ret, hh]

theorem call_none {s : State} {op : Op} (h : callOn s op = none) : call s op = s.ret 0 := by
  simp [call, h, State.ret]

/-- Add a write and its storage region. -/
theorem HInv.new2 {s : State} {ms : List (Option SVal)} {sv : Nat → Option SVal} (H : HInv s ms sv)
    (w p : Var) (x : Option SVal)
    (hr : ∀ d ∈ refs w, d < s.next ∨ d = s.next + 1) (hrp : ∀ d ∈ refs p, d < s.next)
    (hw : w.kind = .write) (hst : w.store = s.next + 1) (h0 : w.dep0 < s.next)
    (hv : w.value < s.next) (hmk : w.mask < s.next) (hof : ∀ o ∈ w.offset.toList, o < s.next)
    (hpk : p.kind = .array) (hpa : p.isArray = true)
    (hwf : WFv (set (set s.vars s.next w) (s.next + 1) p) s.next)
    (hwp : WFv (set (set s.vars s.next w) (s.next + 1) p) (s.next + 1))
    (hme : ∀ y, x = some y → Meant (set s.vars s.next w) sv s.next y ∧ Shape w y) :
    HInv ((s.new w).1.new p).1 ms (set (set sv s.next x) (s.next + 1) (some (createVal p.len))) := by
  have e1 : ((s.new w).1.new p).1.vars = set (set s.vars s.next w) (s.next + 1) p := rfl
  have e2 : ((s.new w).1.new p).1.next = s.next + 2 := rfl
  have e3 : ((s.new w).1.new p).1.handles = s.handles := rfl
  have hTn : set (set s.vars s.next w) (s.next + 1) p s.next = w := by
    rw [set_ne _ _ (by omega), set_self]
  have hold : ∀ u, u < s.next → set (set s.vars s.next w) (s.next + 1) p u = s.vars u := fun u hu => by
    rw [set_ne _ _ (by omega), set_ne _ _ (by omega)]
  have hnew : ∀ u, s.next + 2 ≤ u → set (set s.vars s.next w) (s.next + 1) p u = {} := fun u hu => by
    rw [set_ne _ _ (by omega), set_ne _ _ (by omega)]; exact H.fresh u (by omega)
  have hpos := H.pos
  have hsv : ∀ u, u < s.next →
      set (set sv s.next x) (s.next + 1) (some (createVal p.len)) u = sv u := fun u hu => by
    rw [set_ne _ _ (by omega), set_ne _ _ (by omega)]
  have cases4 : ∀ u, u < s.next ∨ u = s.next ∨ u = s.next + 1 ∨ s.next + 2 ≤ u := by omega
  refine ⟨WF.of ?_ ?_, ?_, ?_, ?_, ?_, ?_, ?_, ?_, ?_, H.len, ?_, ?_, ?_⟩
  · intro u
    rw [e1]
    rcases cases4 u with h | rfl | rfl | h
    · exact (H.wf.at u).congr hold H.bound h
    · exact hwf
    · exact hwp
    · exact wfv_literal (by rw [hnew u h]) (by rw [hnew u h])
  · intro a b ha hb hab
    rw [e1] at ha hb hab
    have h1 : ∀ u, (set (set s.vars s.next w) (s.next + 1) p u).kind = .write → u < s.next ∨ u = s.next := by
      intro u hu
      rcases cases4 u with h | h | rfl | h
      · exact .inl h
      · exact .inr h
      · rw [set_self, hpk] at hu; cases hu
      · rw [hnew u h] at hu; cases hu
    have hsb : ∀ u, u < s.next → (s.vars u).store < s.next := fun u hu =>
      H.bound u hu _ (by simp [refs])
    rcases h1 a ha with h | h <;> rcases h1 b hb with h' | h'
    · rw [hold a h] at ha hab
      rw [hold b h'] at hb hab
      exact H.wf.storeInj a b ha hb hab
    · subst h'
      rw [hold a h, hTn, hst] at hab
      have := hsb a h; omega
    · subst h
      rw [hold b h', hTn, hst] at hab
      have := hsb b h'; omega
    · rw [h, h']
  · rw [e2]; omega
  · intro u hu; rw [e2] at hu; rw [e1]; exact hnew u hu
  · rw [e1, hold 0 (by omega)]; exact H.zero
  · intro u hu d hd
    rw [e2] at hu ⊢
    rw [e1] at hd
    rcases cases4 u with h | rfl | rfl | h
    · rw [hold u h] at hd; have := H.bound u h d hd; omega
    · rw [hTn] at hd; have := hr d hd; omega
    · rw [set_self] at hd; have := hrp d hd; omega
    · omega
  · intro u y hy
    rw [e1]
    rcases cases4 u with h | rfl | rfl | h
    · rw [hsv u h] at hy
      obtain ⟨h1, h2⟩ := H.cons u y hy
      rw [hold u h]
      exact ⟨h1.congr (hold u h) fun d hd => hsv d (H.bound u h d hd), h2⟩
    · rw [set_ne _ _ (by omega), set_self] at hy
      obtain ⟨h1, h2⟩ := hme y hy
      rw [hTn]
      refine ⟨?_, h2⟩
      unfold Meant at h1 ⊢
      rw [hTn]
      simp only [set_self, hw] at h1 ⊢
      rw [hsv _ h0, hsv _ hv, hsv _ hmk]
      have : offsetVal (set (set sv s.next x) (s.next + 1) (some (createVal p.len))) w = offsetVal sv w := by
        unfold offsetVal
        cases ho : w.offset with
        | none => rfl
        | some o => exact hsv o (hof o (by simp [ho]))
      rw [this]
      exact h1
    · rw [set_self] at hy
      simp only [Option.some.injEq] at hy
      subst hy
      unfold Meant
      simp only [set_self, hpk, true_and]
      exact ⟨hpa, rfl⟩
    · rw [set_ne _ _ (by omega), set_ne _ _ (by omega), H.beyond u (by omega)] at hy; cases hy
  · intro u hu
    rw [e2] at hu
    rw [set_ne _ _ (by omega), set_ne _ _ (by omega)]; exact H.beyond u (by omega)
  · rw [hsv 0 (by omega)]; exact H.none0
  · intro u hu
    rw [e1] at hu
    rcases cases4 u with h | rfl | rfl | h
    · rw [hold u h] at hu; rw [hsv u h]; exact H.arr u hu
    · rw [hTn, hw] at hu; cases hu
    · rw [set_self]; simp
    · rw [hnew u h] at hu; cases hu
  · intro k
    have := H.hb k
    unfold State.idx at this ⊢
    rw [e2, e3]; omega
  · intro k hk
    have hb := H.hb k
    unfold State.idx at hk hb ⊢
    rw [e1, e3, hold _ hb] at hk ⊢
    exact H.hv k hk
  · intro k y hk hy
    have hb := H.hb k
    unfold State.idx at hk hb ⊢
    rw [e3] at hk ⊢
    rw [hsv _ hb]
    exact H.hm k y hk hy

end Verif.LocalArr
