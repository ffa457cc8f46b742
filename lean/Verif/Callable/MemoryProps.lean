import Verif.Callable.Memory
import Mathlib.Tactic.Common
import Mathlib.Tactic.Ring
import Mathlib.Data.List.Basic

/-!
# C79: the memory of compiled code
-/
namespace Verif.Callable.Mem

/-! ### Specification -/

/-- A range of addresses -/
structure Range where
  start : Nat
  len : Nat

def Range.Mem (r : Range) (a : Nat) : Prop := r.start ≤ a ∧ a < r.start + r.len

/-- The alignment that LLVM asks for; 0 stands for 16. -/
def effAlign (a : Nat) : Nat := if a = 0 then 16 else a

/-- The sections that LLVM obtains for its requests, and the ranges that are zeroed: all requests succeed; sections are aligned; each byte between the
start of the buffer and the end of the last section belongs to exactly one section or one zeroed range (in the order of the requests), and
none lies beyond the end of the buffer. -/
structure Sections (data size used : Nat) (rs : List (Nat × Nat)) (zs secs : List Range) : Prop where
  lens : secs.map Range.len = rs.map Prod.fst
  aligned : ∀ (i : Nat) (r : Nat × Nat) (s : Range), rs[i]? = some r → secs[i]? = some s → effAlign r.2 ∣ s.start
  fits : used ≤ size
  cover : ∀ a, data ≤ a → a < data + used → ∃ r ∈ zs ++ secs, r.Mem a
  inside : ∀ r ∈ zs ++ secs, data ≤ r.start ∧ r.start + r.len ≤ data + used
  disjoint : ∀ (i j : Nat) (r r' : Range), (zs ++ secs)[i]? = some r → (zs ++ secs)[j]? = some r' → i ≠ j → ∀ a, ¬ (r.Mem a ∧ r'.Mem a)

/-! ### Proofs -/

theorem offsetAlign_spec (m : Mgr) (al : Nat) (h : 0 < al) : al ∣ offsetAlign m al ∧ m.offset ≤ offsetAlign m al ∧ offsetAlign m al < m.offset + al := by
  unfold offsetAlign
  refine ⟨Nat.dvd_mul_left _ _, ?_, ?_⟩
  · have := Nat.div_add_mod (m.offset + (al - 1)) al
    have h2 := Nat.mod_lt (m.offset + (al - 1)) h
    rw [Nat.mul_comm] at this
    omega
  · have := Nat.div_mul_le_self (m.offset + (al - 1)) al
    omega

theorem effAlign_pos {a : Nat} : 0 < effAlign a := by unfold effAlign; split <;> omega

theorem allocateAll_mono (rs : List (Nat × Nat)) : ∀ m : Mgr, m.offset ≤ (allocateAll m rs).1.offset := by
  induction rs with
  | nil => intro m; exact Nat.le_refl _
  | cons r rs ih =>
    intro m
    have h1 := (offsetAlign_spec m (effAlign r.2) effAlign_pos).2.1
    have h2 := ih (allocate m r.1 r.2).1
    have h3 : (allocate m r.1 r.2).1.offset = offsetAlign m (effAlign r.2) + r.1 := rfl
    show m.offset ≤ (allocateAll (allocate m r.1 r.2).1 rs).1.offset
    omega

/-- The ranges of the zeroed padding and of the sections, computed from the offsets -/
def ranges (m : Mgr) : List (Nat × Nat) → List Range × List Range
  | [] => ([], [])
  | r :: rs =>
    let o := offsetAlign m (effAlign r.2)
    let b := ranges (allocate m r.1 r.2).1 rs
    (⟨m.data + m.offset, o - m.offset⟩ :: b.1, ⟨m.data + o, r.1⟩ :: b.2)

theorem ranges_inside (rs : List (Nat × Nat)) : ∀ m : Mgr, ∀ r ∈ (ranges m rs).1 ++ (ranges m rs).2,
    m.data + m.offset ≤ r.start ∧ r.start + r.len ≤ m.data + (allocateAll m rs).1.offset := by
  induction rs with
  | nil => intro m r hr; simp [ranges] at hr
  | cons q rs ih =>
    intro m r hr
    have h1 := (offsetAlign_spec m (effAlign q.2) effAlign_pos).2.1
    have hmono := allocateAll_mono rs (allocate m q.1 q.2).1
    have h3 : (allocate m q.1 q.2).1.offset = offsetAlign m (effAlign q.2) + q.1 := rfl
    have h4 : (allocate m q.1 q.2).1.data = m.data := rfl
    have hgoal : (allocateAll m (q :: rs)).1 = (allocateAll (allocate m q.1 q.2).1 rs).1 := rfl
    rw [hgoal]
    have ihr := ih (allocate m q.1 q.2).1 r
    simp only [ranges, List.mem_append, List.mem_cons] at hr ihr
    rcases hr with (rfl | hr) | (rfl | hr)
    · dsimp only; omega
    · have := ihr (Or.inl hr); omega
    · dsimp only; omega
    · have := ihr (Or.inr hr); omega

theorem ranges_cover (rs : List (Nat × Nat)) : ∀ m : Mgr, ∀ a, m.data + m.offset ≤ a → a < m.data + (allocateAll m rs).1.offset →
    ∃ r ∈ (ranges m rs).1 ++ (ranges m rs).2, r.Mem a := by
  induction rs with
  | nil => intro m a h1 h2; simp only [allocateAll] at h2; omega
  | cons q rs ih =>
    intro m a h1 h2
    have ha := (offsetAlign_spec m (effAlign q.2) effAlign_pos).2.1
    have h3 : (allocate m q.1 q.2).1.offset = offsetAlign m (effAlign q.2) + q.1 := rfl
    have h4 : (allocate m q.1 q.2).1.data = m.data := rfl
    have hgoal : (allocateAll m (q :: rs)).1 = (allocateAll (allocate m q.1 q.2).1 rs).1 := rfl
    rw [hgoal] at h2
    simp only [ranges, List.mem_append, List.mem_cons]
    by_cases c1 : a < m.data + offsetAlign m (effAlign q.2)
    · exact ⟨_, Or.inl (Or.inl rfl), h1, by dsimp only; omega⟩
    by_cases c2 : a < m.data + offsetAlign m (effAlign q.2) + q.1
    · exact ⟨_, Or.inr (Or.inl rfl), by dsimp only; omega, c2⟩
    obtain ⟨r, hr, hm⟩ := ih (allocate m q.1 q.2).1 a (by omega) h2
    simp only [List.mem_append] at hr
    rcases hr with hr | hr
    · exact ⟨r, Or.inl (Or.inr hr), hm⟩
    · exact ⟨r, Or.inr (Or.inr hr), hm⟩

/-- Pairwise disjointness as a property of lists -/
def Apart (r r' : Range) : Prop := ∀ a, ¬ (r.Mem a ∧ r'.Mem a)

theorem Apart.symm {r r' : Range} (h : Apart r r') : Apart r' r := fun a ⟨h1, h2⟩ => h a ⟨h2, h1⟩

theorem ranges_apart (rs : List (Nat × Nat)) : ∀ m : Mgr, ((ranges m rs).1 ++ (ranges m rs).2).Pairwise Apart := by
  induction rs with
  | nil => intro m; simp [ranges]
  | cons q rs ih =>
    intro m
    have ha := (offsetAlign_spec m (effAlign q.2) effAlign_pos).2.1
    have h3 : (allocate m q.1 q.2).1.offset = offsetAlign m (effAlign q.2) + q.1 := rfl
    have h4 : (allocate m q.1 q.2).1.data = m.data := rfl
    have hin := ranges_inside rs (allocate m q.1 q.2).1
    have ihp := ih (allocate m q.1 q.2).1
    simp only [ranges, List.cons_append]
    have hz : ∀ r ∈ (ranges (allocate m q.1 q.2).1 rs).1 ++ (ranges (allocate m q.1 q.2).1 rs).2,
        Apart ⟨m.data + m.offset, offsetAlign m (effAlign q.2) - m.offset⟩ r ∧ Apart ⟨m.data + offsetAlign m (effAlign q.2), q.1⟩ r := by
      intro r hr
      have := hin r hr
      constructor <;> intro a ⟨⟨g1, g2⟩, ⟨g3, g4⟩⟩ <;> dsimp only at g1 g2 <;> omega
    rw [List.pairwise_cons, List.pairwise_middle (fun h => Apart.symm h), List.pairwise_cons]
    refine ⟨?_, fun r hr => (hz r hr).2, ihp⟩
    intro r hr
    simp only [List.mem_append, List.mem_cons] at hr
    rcases hr with hr | rfl | hr
    · exact (hz r (List.mem_append.2 (Or.inl hr))).1
    · intro a ⟨⟨g1, g2⟩, ⟨g3, g4⟩⟩
      dsimp only at g1 g2 g3 g4; omega
    · exact (hz r (List.mem_append.2 (Or.inr hr))).1

theorem ranges_aligned {base : Nat} (rs : List (Nat × Nat)) : ∀ m : Mgr, m.data = base → (∀ r ∈ rs, effAlign r.2 ∣ base) →
    ∀ (i : Nat) (r : Nat × Nat) (s : Range), rs[i]? = some r → (ranges m rs).2[i]? = some s → effAlign r.2 ∣ s.start := by
  induction rs with
  | nil => intro m _ _ i r s h; simp at h
  | cons q rs ih =>
    intro m hm hal i r s h1 h2
    cases i with
    | zero =>
      simp only [ranges, List.getElem?_cons_zero, Option.some.injEq] at h1 h2
      subst h1; subst h2
      exact Nat.dvd_add (hm ▸ hal q (by simp)) (offsetAlign_spec m _ effAlign_pos).1
    | succ i =>
      simp only [ranges, List.getElem?_cons_succ] at h1 h2
      exact ih (allocate m q.1 q.2).1 hm (fun r hr => hal r (by simp [hr])) i r s h1 h2

theorem ranges_lens (rs : List (Nat × Nat)) : ∀ m : Mgr, (ranges m rs).2.map Range.len = rs.map Prod.fst := by
  induction rs with
  | nil => intro m; rfl
  | cons q rs ih => intro m; simp [ranges, ih]

theorem ranges_eq (rs : List (Nat × Nat)) : ∀ m : Mgr,
    (allocateAll m rs).2.1 = (ranges m rs).1.map (fun r => ⟨r.start, r.len⟩) ∧
    ((allocateAll m rs).1.offset ≤ m.size → (allocateAll m rs).2.2 = (ranges m rs).2.map fun r => some r.start) := by
  induction rs with
  | nil => intro m; exact ⟨rfl, fun _ => rfl⟩
  | cons q rs ih =>
    intro m
    obtain ⟨i1, i2⟩ := ih (allocate m q.1 q.2).1
    refine ⟨?_, fun h => ?_⟩
    · simp only [allocateAll, ranges, List.map_cons, i1]; rfl
    · have hmono := allocateAll_mono rs (allocate m q.1 q.2).1
      have h' : (allocateAll (allocate m q.1 q.2).1 rs).1.offset ≤ m.size := h
      simp only [allocateAll, ranges, List.map_cons]
      rw [i2 h']
      have hle : (allocate m q.1 q.2).1.offset ≤ m.size := by omega
      have : (allocate m q.1 q.2).2.2 = some (m.data + offsetAlign m (effAlign q.2)) := by
        show (if (allocate m q.1 q.2).1.offset > m.size then none else some (m.data + offsetAlign m (effAlign q.2))) = _
        rw [if_neg (by omega)]
      rw [this]

/-- The last request fails if the space is not sufficient. -/
theorem last_fails (rs : List (Nat × Nat)) : ∀ m : Mgr, rs ≠ [] → (∀ x ∈ (allocateAll m rs).2.2, x ≠ none) → (allocateAll m rs).1.offset ≤ m.size := by
  induction rs with
  | nil => intro m h; exact absurd rfl h
  | cons q rs ih =>
    intro m _ hall
    have h1 : (allocate m q.1 q.2).2.2 ≠ none := hall _ (by simp [allocateAll])
    by_cases hrs : rs = []
    · subst hrs
      show (allocate m q.1 q.2).1.offset ≤ m.size
      by_contra hc
      apply h1
      show (if (allocate m q.1 q.2).1.offset > m.size then none else _) = none
      rw [if_pos (by omega)]
    · exact ih (allocate m q.1 q.2).1 hrs fun x hx => hall x (by simp only [allocateAll]; exact List.mem_cons_of_mem _ hx)

/-- **C79.**  After `prepare`: if LLVM is never refused memory, it obtains disjoint, aligned sections within the buffer, the gaps between them
are zeroed, and nothing else is written. -/
theorem C79_sections_partial (m : Mgr) (rs : List (Nat × Nat)) (h0 : m.offset = 0) (hne : rs ≠ []) (hok : ∀ x ∈ (allocateAll m rs).2.2, x ≠ none)
    (hal : ∀ r ∈ rs, effAlign r.2 ∣ m.data) :
    ∃ zs secs : List Range, (allocateAll m rs).2.1 = zs.map (fun r => ⟨r.start, r.len⟩) ∧ (allocateAll m rs).2.2 = secs.map (fun r => some r.start) ∧
      Sections m.data m.size (allocateAll m rs).1.offset rs zs secs := by
  have hle := last_fails rs m hne hok
  obtain ⟨e1, e2⟩ := ranges_eq rs m
  refine ⟨_, _, e1, e2 hle, ranges_lens rs m, ranges_aligned rs m rfl hal, hle, ?_, ?_, ?_⟩
  · intro a h1 h2
    exact ranges_cover rs m a (by omega) h2
  · intro r hr
    have := ranges_inside rs m r hr
    omega
  · intro i j r r' hi hj hij
    have hp := List.pairwise_iff_getElem.1 (ranges_apart rs m)
    obtain ⟨li, ei⟩ := List.getElem?_eq_some_iff.1 hi
    obtain ⟨lj, ej⟩ := List.getElem?_eq_some_iff.1 hj
    rcases Nat.lt_or_gt_of_ne hij with h | h
    · have := hp i j li lj h; rw [ei, ej] at this; exact this
    · have := hp j i lj li h; rw [ei, ej] at this; exact this.symm

/-- Example: three sections with different alignments -/
example : (allocateAll ⟨4096, 1000, 0⟩ [(100, 16), (7, 0), (33, 64)]).2.2 = [some 4096, some 4208, some 4224] ∧
    ∃ zs secs, Sections 4096 1000 161 [(100, 16), (7, 0), (33, 64)] zs secs := by
  refine ⟨by decide, ?_⟩
  obtain ⟨zs, secs, _, _, h⟩ := C79_sections_partial ⟨4096, 1000, 0⟩ [(100, 16), (7, 0), (33, 64)] rfl (by simp) (by decide) (by decide)
  exact ⟨zs, secs, h⟩

/-- The sections are usable after they were copied to another place (the result of `mmap`), and also after the kernel was stored in a file and
loaded at a third place: relocated addresses are aligned, and the bytes behind them are the same. -/
theorem C79_relocation (m : Mgr) (rs : List (Nat × Nat)) (zs secs : List Range) (used ptr : Nat) (mem : Nat → UInt8)
    (h : Sections m.data m.size used rs zs secs) (hptr : ∀ r ∈ rs, effAlign r.2 ∣ ptr) (hal : ∀ r ∈ rs, effAlign r.2 ∣ m.data) :
    (∀ s ∈ secs, ∀ i, i < s.len → copy mem ptr m.data used (relocate ptr m s.start + i) = mem (s.start + i) ∧ relocate ptr m s.start + i < ptr + used) ∧
    (∀ (i : Nat) (r : Nat × Nat) (s : Range), rs[i]? = some r → secs[i]? = some s → effAlign r.2 ∣ relocate ptr m s.start) ∧
    ∀ ptr', ∀ s ∈ secs, loaded ptr' (stored ptr (relocate ptr m s.start)) = relocate ptr' m s.start := by
  refine ⟨?_, ?_, ?_⟩
  · intro s hs i hi
    have := h.inside s (List.mem_append.2 (Or.inr hs))
    unfold copy relocate
    have hlt : ptr + (s.start - m.data) + i < ptr + used := by omega
    rw [if_pos ⟨by omega, hlt⟩]
    exact ⟨by congr 1; omega, hlt⟩
  · intro i r s hr hs
    have ha := h.aligned i r s hr hs
    have hmem := List.mem_of_getElem? hr
    exact Nat.dvd_add (hptr r hmem) (Nat.dvd_sub ha (hal r hmem))
  · intro ptr' s hs
    unfold loaded stored relocate
    omega

/-- The padding is zeroed before the bound is checked: for a buffer of 10000 bytes and sections of 9999 bytes and 1 byte with alignment 4096, the
`memset` writes 2288 bytes beyond the end of the buffer. -/
theorem C79_padding_counterexample (data : Nat) :
    ∃ z ∈ (allocateAll ⟨data, 10000, 0⟩ [(9999, 16), (1, 4096)]).2.1, z.addr + z.len = data + 10000 + 2288 := by
  refine ⟨⟨data + 9999, 2289⟩, ?_, by simp⟩
  simp [allocateAll, allocate, offsetAlign]

/-- The buffer of the manager is live and has the stated size, or there is none. -/
def Valid (w : World) : Prop := (w.m.data = 0 ∧ w.m.size = 0) ∨ (w.m.data ≠ 0 ∧ w.live w.m.data = some w.m.size)

/-- Results of `posix_memalign`: never `nullptr` -/
def Op.Succeeds : Op → Prop
  | .prepare _ fresh => ∃ p, fresh = some p ∧ p ≠ 0
  | _ => True

/-- In every history of kernels in which no allocation fails: buffers are freed at most once, and the buffer in use is live and has the size that the
bound check uses. -/
theorem C79_buffer_partial (os : List Op) : ∀ w : World, Valid w → (∀ o ∈ os, o.Succeeds) → ∃ w', w.run os = some w' ∧ Valid w' := by
  induction os with
  | nil => intro w hv _; exact ⟨w, rfl, hv⟩
  | cons o os ih =>
    intro w hv hs
    have hfree : ∃ live, free w.live w.m.data = some live := by
      unfold free
      rcases hv with ⟨h1, _⟩ | ⟨h1, h2⟩
      · rw [if_pos h1]; exact ⟨_, rfl⟩
      · rw [if_neg h1, h2]; exact ⟨_, rfl⟩
    have hstep : ∃ w', w.step o = some w' ∧ Valid w' := by
      obtain ⟨live, hlive⟩ := hfree
      cases o with
      | allocate size align => exact ⟨_, rfl, hv⟩
      | shutdown => exact ⟨⟨⟨0, 0, 0⟩, live⟩, by simp [World.step, hlive], Or.inl ⟨rfl, rfl⟩⟩
      | prepare n fresh =>
        obtain ⟨p, rfl, hp⟩ := hs (.prepare n fresh) (by simp)
        by_cases hc : w.m.size ≤ n * 10
        · refine ⟨⟨⟨p, n * 10, 0⟩, fun a => if a = p then some (n * 10) else live a⟩, ?_, Or.inr ⟨hp, by simp⟩⟩
          simp [World.step, prepare, hc, hlive]
        · refine ⟨⟨{ w.m with offset := 0 }, w.live⟩, ?_, hv⟩
          simp [World.step, prepare, hc]
    obtain ⟨w', h1, h2⟩ := hstep
    obtain ⟨w'', h3, h4⟩ := ih w' h2 fun o' ho' => hs o' (by simp [ho'])
    exact ⟨w'', by simp only [World.run, h1, Option.bind_some]; exact h3, h4⟩

/-- The buffer is large enough for code of up to ten times the size of the textual program. -/
theorem C79_capacity (w w' : World) (n p : Nat) (h : w.step (.prepare n (some p)) = some w') : n * 10 ≤ w'.m.size ∧ w'.m.offset = 0 := by
  by_cases hc : w.m.size ≤ n * 10
  · simp only [World.step, prepare, hc, if_true, Option.map_eq_some_iff] at h
    obtain ⟨live, _, rfl⟩ := h
    exact ⟨Nat.le_refl _, rfl⟩
  · simp only [World.step, prepare, hc, if_false, Option.some.injEq] at h
    subst h
    exact ⟨by dsimp only; omega, rfl⟩

example : ∃ w', World.run ⟨⟨0, 0, 0⟩, fun _ => none⟩ [.prepare 50 (some 4096), .allocate 100 16, .allocate 3 64, .prepare 20 (some 8192),
    .prepare 90 (some 8192), .allocate 30 16, .shutdown] = some w' ∧ Valid w' :=
  C79_buffer_partial _ _ (Or.inl ⟨rfl, rfl⟩) (by
    intro o ho
    simp only [List.mem_cons, List.not_mem_nil, or_false] at ho
    rcases ho with rfl | rfl | rfl | rfl | rfl | rfl | rfl <;> simp [Op.Succeeds])

/-- If an allocation fails, the manager keeps the address and the size of the buffer that was freed: a later, smaller kernel is compiled into freed memory,
and a later, larger one frees the buffer again. -/
theorem C79_failure_counterexample :
    (∃ w', World.run ⟨⟨0, 0, 0⟩, fun _ => none⟩ [.prepare 50 (some 4096), .prepare 90 none, .prepare 20 (some 8192)] = some w' ∧
      w'.m.data = 4096 ∧ w'.m.size = 500 ∧ w'.live 4096 = none) ∧
    World.run ⟨⟨0, 0, 0⟩, fun _ => none⟩ [.prepare 50 (some 4096), .prepare 90 none, .prepare 60 (some 8192)] = none := by
  constructor
  · refine ⟨⟨⟨4096, 500, 0⟩, fun a => if a = 4096 then none else if a = 4096 then some 500 else none⟩, ?_, rfl, rfl, by simp⟩
    simp [World.run, World.step, prepare, free]
  · simp [World.run, World.step, prepare, free]

end Verif.Callable.Mem
