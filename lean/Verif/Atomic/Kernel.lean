import Verif.Atomic.Lin
import Verif.Atomic.Model

/-!
# Kernels: many threads, each with many packets
-/
namespace Verif.Atomic

variable {V R A P : Type}

/-- Number of the thread, number of the packet of the thread, number of the lane -/
abbrev LaneId := Nat × Nat × Nat

/-- The active lanes of packet `k` of thread `t` -/
def packetOps (w : Nat) (index : P → Nat → Nat) (mask : P → Nat → Bool) (act : P → Nat → V → V × R) (t k : Nat) (p : P) :
    List (LaneOp LaneId V R) :=
  ((List.range w).filter (mask p)).map fun i => { lane := (t, k, i), entry := index p i, act := act p i }

/-- The active lanes of thread `t`; `k` is the number of its first packet. -/
def threadOps (w : Nat) (index : P → Nat → Nat) (mask : P → Nat → Bool) (act : P → Nat → V → V × R) (t : Nat) :
    Nat → List P → List (LaneOp LaneId V R)
  | _, [] => []
  | k, p :: ps => packetOps w index mask act t k p ++ threadOps w index mask act t (k + 1) ps

/-- The active lanes of a kernel; `t` is the number of the first thread. -/
def kernelOps (w : Nat) (index : P → Nat → Nat) (mask : P → Nat → Bool) (act : P → Nat → V → V × R) :
    Nat → List (List P) → List (LaneOp LaneId V R)
  | _, [] => []
  | t, ps :: pss => threadOps w index mask act t 0 ps ++ kernelOps w index mask act (t + 1) pss

/-- What a lane of a kernel returns -/
def laneResult (outs : List (List (Nat → R))) (l : LaneId) : Option R :=
  (outs[l.1]?.bind fun os => os[l.2.1]?).map fun o => o l.2.2

section
variable {w : Nat} {index : P → Nat → Nat} {mask : P → Nat → Bool} {act : P → Nat → V → V × R} {Le : V → V → Prop} {addr : Nat → Nat}
  {code : P → Act V A} {OK : P → Nat → Nat → A → List (LaneId × R) → Prop}

/-- The results of the packets of thread `t`, from packet `k` on -/
def OutsOK (OK : P → Nat → Nat → A → List (LaneId × R) → Prop) (t : Nat) : Nat → List P → List A → List (LaneId × R) → Prop
  | _, [], outs, _ => outs = []
  | _, _ :: _, [], _ => False
  | k, p :: ps, a :: as, past => OK p t k a past ∧ OutsOK OK t (k + 1) ps as past

theorem OutsOK.mono (hm : ∀ p t k a l l', l ⊆ l' → OK p t k a l → OK p t k a l') {t k : Nat} {ps : List P} {outs : List A}
    {l l' : List (LaneId × R)} (hl : l ⊆ l') (h : OutsOK OK t k ps outs l) : OutsOK OK t k ps outs l' := by
  induction ps generalizing k outs with
  | nil => exact h
  | cons p ps ih =>
    cases outs with
    | nil => exact h
    | cons a as => exact ⟨hm _ _ _ _ _ _ hl h.1, ih h.2⟩

theorem seq_lin (hm : ∀ p t k a l l', l ⊆ l' → OK p t k a l → OK p t k a l') {t : Nat} (ps : List P) (k : Nat)
    (h : ∀ p ∈ ps, ∀ t k, Lin Le addr (OK p t k) (code p) (packetOps w index mask act t k p) []) :
    Lin Le addr (OutsOK OK t k ps) (Act.seq (ps.map code)) (threadOps w index mask act t k ps) [] := by
  induction ps generalizing k with
  | nil => exact ⟨fun o ho => (nomatch ho), rfl⟩
  | cons p ps ih =>
    refine (h p (List.mem_cons_self ..) t k).then fun a past ha => ?_
    have h2 := (ih (k + 1) fun p hp => h p (List.mem_cons_of_mem _ hp)).past past
    have h3 : Lin Le addr (OutsOK OK t k (p :: ps)) (Act.bind (Act.seq (ps.map code)) fun as => .pure (a :: as))
        (threadOps w index mask act t (k + 1) ps ++ []) (past ++ []) := by
      refine Lin.then h2 fun as past' ha' => ?_
      obtain ⟨l, rfl, hl⟩ := ha'
      refine ⟨fun o ho => (nomatch ho), hm _ _ _ _ _ _ (List.subset_append_left _ _) ha, ?_⟩
      exact OutsOK.mono hm (List.subset_append_right _ _) hl
    rw [List.append_nil, List.append_nil] at h3
    exact h3

/-- A thread with its lanes -/
def job (w : Nat) (index : P → Nat → Nat) (mask : P → Nat → Bool) (act : P → Nat → V → V × R) (code : P → Act V A)
    (OK : P → Nat → Nat → A → List (LaneId × R) → Prop) (x : List P × Nat) : Job LaneId V R (List A) :=
  { prog := Act.seq (x.1.map code), ops := threadOps w index mask act x.2 0 x.1, Q := OutsOK OK x.2 0 x.1 }

theorem job_ops (t : Nat) (pss : List (List P)) :
    (((pss.zipIdx t).map (job w index mask act code OK)).map Job.ops).flatten = kernelOps w index mask act t pss := by
  induction pss generalizing t with
  | nil => rfl
  | cons ps pss ih => simp only [List.zipIdx_cons, List.map_cons, List.flatten_cons, kernelOps, ih, job]

theorem job_progs (t : Nat) (pss : List (List P)) :
    ((pss.zipIdx t).map (job w index mask act code OK)).map Job.prog = kernel code pss := by
  induction pss generalizing t with
  | nil => rfl
  | cons ps pss ih =>
    have := ih (t + 1)
    simp only [kernel] at this
    simp only [List.zipIdx_cons, List.map_cons, kernel, this]
    rfl

theorem mem_packetOps {t k : Nat} {p : P} {o : LaneOp LaneId V R} (h : o ∈ packetOps w index mask act t k p) :
    ∃ i, i < w ∧ mask p i = true ∧ o = { lane := (t, k, i), entry := index p i, act := act p i } := by
  obtain ⟨i, hi, rfl⟩ := List.mem_map.1 h
  obtain ⟨h1, h2⟩ := List.mem_filter.1 hi
  exact ⟨i, List.mem_range.1 h1, h2, rfl⟩

theorem mem_threadOps {t k : Nat} {ps : List P} {o : LaneOp LaneId V R} (h : o ∈ threadOps w index mask act t k ps) :
    ∃ n p, ps[n]? = some p ∧ o ∈ packetOps w index mask act t (k + n) p := by
  induction ps generalizing k with
  | nil => cases h
  | cons p ps ih =>
    rcases List.mem_append.1 h with h | h
    · exact ⟨0, p, rfl, h⟩
    · obtain ⟨n, q, h1, h2⟩ := ih h
      refine ⟨n + 1, q, by simpa using h1, ?_⟩
      rw [show k + (n + 1) = k + 1 + n by omega]
      exact h2

theorem mem_kernelOps {t : Nat} {pss : List (List P)} {o : LaneOp LaneId V R} (h : o ∈ kernelOps w index mask act t pss) :
    ∃ n ps, pss[n]? = some ps ∧ o ∈ threadOps w index mask act (t + n) 0 ps := by
  induction pss generalizing t with
  | nil => cases h
  | cons ps pss ih =>
    rcases List.mem_append.1 h with h | h
    · exact ⟨0, ps, rfl, h⟩
    · obtain ⟨n, q, h1, h2⟩ := ih h
      refine ⟨n + 1, q, by simpa using h1, ?_⟩
      rw [show t + (n + 1) = t + 1 + n by omega]
      exact h2

theorem OutsOK.get {t k : Nat} {ps : List P} {outs : List A} {past : List (LaneId × R)} (h : OutsOK OK t k ps outs past)
    {n : Nat} {p : P} (hp : ps[n]? = some p) : ∃ a, outs[n]? = some a ∧ OK p t (k + n) a past := by
  induction ps generalizing k outs n with
  | nil => cases hp
  | cons q ps ih =>
    cases outs with
    | nil => exact h.elim
    | cons a as =>
      cases n with
      | zero => cases hp; exact ⟨a, rfl, h.1⟩
      | succ n =>
        obtain ⟨b, h1, h2⟩ := ih h.2 (n := n) (by simpa using hp)
        refine ⟨b, by simpa using h1, ?_⟩
        rw [show k + (n + 1) = k + 1 + n by omega]
        exact h2

theorem forall₂_get {X Y : Type} {r : X → Y → Prop} {xs : List X} {ys : List Y} (h : List.Forall₂ r xs ys) {n : Nat} {x : X}
    (hx : xs[n]? = some x) : ∃ y, ys[n]? = some y ∧ r x y := by
  induction h generalizing n with
  | nil => cases hx
  | cons h1 _ ih =>
    cases n with
    | zero => cases hx; exact ⟨_, rfl, h1⟩
    | succ n => exact ih (by simpa using hx)

/-- **Rule.**  If each packet has the effect of its active lanes, so does the kernel. -/
theorem kernel_serial (hr : ∀ v, Le v v) (ht : ∀ a b c, Le a b → Le b c → Le a c) (hinj : Function.Injective addr)
    (hm : ∀ p t k a l l', l ⊆ l' → OK p t k a l → OK p t k a l') {threads : List (List P)}
    (h : ∀ ps ∈ threads, ∀ p ∈ ps, ∀ t k, Lin Le addr (OK p t k) (code p) (packetOps w index mask act t k p) [])
    (hle : ∀ ps ∈ threads, ∀ p ∈ ps, ∀ i v, Le v (act p i v).1)
    {mem mem' : Nat → V} {outs : List (List A)} (he : Ends mem (kernel code threads) mem' outs) :
    (∃ order rs, order.Perm (kernelOps w index mask act 0 threads) ∧
      seqRun order (fun j => mem (addr j)) = ((fun j => mem' (addr j)), rs) ∧
      ∀ t ps k p, threads[t]? = some ps → ps[k]? = some p →
        ∃ as a, outs[t]? = some as ∧ as[k]? = some a ∧ OK p t k a rs) ∧
    ∀ l, (∀ j, addr j ≠ l) → mem' l = mem l := by
  rw [← job_progs (w := w) (index := index) (mask := mask) (act := act) (OK := OK) 0] at he
  have hjob : ∀ j ∈ (threads.zipIdx 0).map (job w index mask act code OK), Lin Le addr j.Q j.prog j.ops [] := by
    intro j hj
    obtain ⟨⟨ps, t⟩, hx, rfl⟩ := List.mem_map.1 hj
    exact seq_lin hm ps 0 fun p hp => h ps (by
      obtain ⟨_, _, h3⟩ := List.mem_zipIdx hx
      rw [h3]; exact List.getElem_mem _) p hp
  have hjle : ∀ j ∈ (threads.zipIdx 0).map (job w index mask act code OK), ∀ o ∈ j.ops, ∀ v, Le v (o.act v).1 := by
    intro j hj o ho v
    obtain ⟨⟨ps, t⟩, hx, rfl⟩ := List.mem_map.1 hj
    obtain ⟨n, p, h1, h2⟩ := mem_threadOps ho
    obtain ⟨i, _, _, rfl⟩ := mem_packetOps h2
    refine hle ps ?_ p (List.mem_of_getElem? h1) i v
    obtain ⟨_, _, h3⟩ := List.mem_zipIdx hx
    rw [h3]; exact List.getElem_mem _
  obtain ⟨⟨order, rs, h1, h2, h3⟩, h4⟩ := linearize hr ht hinj hjob hjle he
  rw [job_ops] at h1
  refine ⟨⟨order, rs, h1, h2, fun t ps k p hps hp => ?_⟩, h4⟩
  obtain ⟨as, g1, past, g2, g3⟩ := forall₂_get h3 (n := t) (x := job w index mask act code OK (ps, t)) (by
    rw [List.getElem?_map, List.getElem?_zipIdx, hps]; simp)
  obtain ⟨a, g4, g5⟩ := OutsOK.get (k := 0) g3 hp
  refine ⟨as, a, g1, g4, hm _ _ _ _ _ _ g2 ?_⟩
  rwa [Nat.zero_add] at g5

theorem kernel_safe (hr : ∀ v, Le v v) (ht : ∀ a b c, Le a b → Le b c → Le a c) (hinj : Function.Injective addr)
    (hm : ∀ p t k a l l', l ⊆ l' → OK p t k a l → OK p t k a l') {threads : List (List P)}
    (h : ∀ ps ∈ threads, ∀ p ∈ ps, ∀ t k, Lin Le addr (OK p t k) (code p) (packetOps w index mask act t k p) [])
    (hle : ∀ ps ∈ threads, ∀ p ∈ ps, ∀ i v, Le v (act p i v).1) (mem : Nat → V) : Safe mem (kernel code threads) := by
  rw [← job_progs (w := w) (index := index) (mask := mask) (act := act) (OK := OK) 0]
  refine lin_safe hr ht hinj ?_ ?_
  · intro j hj
    obtain ⟨⟨ps, t⟩, hx, rfl⟩ := List.mem_map.1 hj
    exact seq_lin hm ps 0 fun p hp => h ps (by
      obtain ⟨_, _, h3⟩ := List.mem_zipIdx hx
      rw [h3]; exact List.getElem_mem _) p hp
  · intro j hj o ho v
    obtain ⟨⟨ps, t⟩, hx, rfl⟩ := List.mem_map.1 hj
    obtain ⟨n, p, h1, h2⟩ := mem_threadOps ho
    obtain ⟨i, _, _, rfl⟩ := mem_packetOps h2
    refine hle ps ?_ p (List.mem_of_getElem? h1) i v
    obtain ⟨_, _, h3⟩ := List.mem_zipIdx hx
    rw [h3]; exact List.getElem_mem _

end

/-! ### Executions end -/

theorem steps_trans {s t u : St V A} (h1 : Steps s t) (h2 : Steps t u) : Steps s u := by
  induction h2 with
  | refl => exact h1
  | tail _ h ih => exact ih.tail h

/-- A thread can run until it ends or has undefined behaviour. -/
theorem run_one (s : St V A) (i : Nat) (p : Act V A) (hi : s.thr[i]? = some p) :
    ∃ s' q, Steps s s' ∧ s'.thr = s.thr.set i q ∧ ((∃ a, q = .pure a) ∨ q = .ub) := by
  induction p generalizing s with
  | pure a =>
    refine ⟨s, .pure a, .refl _, ?_, .inl ⟨a, rfl⟩⟩
    refine List.ext_getElem? fun n => ?_
    rw [List.getElem?_set]
    split
    · rename_i e; subst e; rw [hi, if_pos (List.getElem?_eq_some_iff.1 hi).1]
    · rfl
  | load l k ih =>
    have hlt := (List.getElem?_eq_some_iff.1 hi).1
    obtain ⟨s', q, h1, h2, h3⟩ := ih (s.mem l) { s with thr := s.thr.set i (k (s.mem l)) } (by simp [hlt])
    exact ⟨s', q, steps_trans ((Steps.refl _).tail (.load s i l k _ hi (.inl rfl))) h1, by rw [h2]; simp, h3⟩
  | rmw l f k ih =>
    have hlt := (List.getElem?_eq_some_iff.1 hi).1
    obtain ⟨s', q, h1, h2, h3⟩ := ih (s.mem l) ⟨fun x => if x = l then f (s.mem l) else s.mem x,
        fun x => if x = l then s.mem l :: s.old l else s.old x, s.thr.set i (k (s.mem l))⟩ (by simp [hlt])
    exact ⟨s', q, steps_trans ((Steps.refl _).tail (.rmw s i l f k hi)) h1, by rw [h2]; simp, h3⟩
  | ub =>
    refine ⟨s, .ub, .refl _, ?_, .inr rfl⟩
    refine List.ext_getElem? fun n => ?_
    rw [List.getElem?_set]
    split
    · rename_i e; subst e; rw [hi, if_pos (List.getElem?_eq_some_iff.1 hi).1]
    · rfl

/-- Threads without undefined behaviour can run to completion. -/
theorem ends_exists {mem : Nat → V} {thr : List (Act V A)} (h : Safe mem thr) : ∃ mem' outs, Ends mem thr mem' outs := by
  have key : ∀ n, n ≤ thr.length → ∃ s : St V A, Steps (start mem thr) s ∧ s.thr.length = thr.length ∧
      ∀ i, i < n → ∃ a, s.thr[i]? = some (.pure a) := by
    intro n
    induction n with
    | zero => intro _; exact ⟨_, .refl _, rfl, fun i hi => absurd hi (by omega)⟩
    | succ n ih =>
      intro hn
      obtain ⟨s, h1, h2, h3⟩ := ih (by omega)
      have hlt : n < s.thr.length := by omega
      obtain ⟨s', q, g1, g2, g3⟩ := run_one s n s.thr[n] (List.getElem?_eq_getElem hlt)
      have h4 := steps_trans h1 g1
      refine ⟨s', h4, by rw [g2, List.length_set, h2], fun i hi => ?_⟩
      rw [g2, List.getElem?_set]
      by_cases e : n = i
      · subst e
        rw [if_pos rfl, if_pos hlt]
        rcases g3 with ⟨a, ha⟩ | hub
        · exact ⟨a, by rw [ha]⟩
        · refine absurd ?_ (h s' h4)
          rw [g2, hub]
          exact List.mem_of_getElem? (i := n) (by rw [List.getElem?_set, if_pos rfl, if_pos hlt])
      · rw [if_neg e]; exact h3 i (by omega)
  obtain ⟨s, h1, h2, h3⟩ := key thr.length (Nat.le_refl _)
  have : ∃ outs : List A, s.thr = outs.map .pure := by
    have hp : ∀ p ∈ s.thr, ∃ a : A, p = .pure a := by
      intro p hp
      obtain ⟨i, hi, rfl⟩ := List.mem_iff_getElem.1 hp
      obtain ⟨a, ha⟩ := h3 i (by omega)
      exact ⟨a, by rw [List.getElem?_eq_getElem hi] at ha; exact Option.some.inj ha⟩
    clear h1 h2 h3
    generalize s.thr = ps at hp
    induction ps with
    | nil => exact ⟨[], rfl⟩
    | cons p ps ih =>
      obtain ⟨as, h1⟩ := ih fun p h => hp p (List.mem_cons_of_mem _ h)
      obtain ⟨a, h2⟩ := hp p (List.mem_cons_self ..)
      exact ⟨a :: as, by rw [h1, h2]; rfl⟩
  obtain ⟨outs, ho⟩ := this
  refine ⟨s.mem, outs, s.old, ?_⟩
  rw [← ho]
  exact h1

end Verif.Atomic
