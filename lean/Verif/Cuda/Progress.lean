import Verif.Cuda.LookProps

/-!
# Progress of the look-back: a chunk depends on its predecessors only
-/
namespace Verif.Cuda

variable {V H : Type} {C : Cfg V H}

theorem LRun.trans {on : Nat → Prop} {s t u : LState V H} (h1 : LRun C on s t) (h2 : LRun C on t u) : LRun C on s u := by
  induction h2 with
  | refl => exact h1
  | tail c _ hc ho st ih => exact .tail c ih hc ho st

theorem LRun.mono {on on' : Nat → Prop} (h : ∀ c, on c → on' c) {s t : LState V H} (h1 : LRun C on s t) : LRun C on' s t := by
  induction h1 with
  | refl => exact .refl _
  | tail c _ hc ho st ih => exact .tail c ih hc (h c ho) st

theorem LRun.one {on : Nat → Prop} {s t : LState V H} {c : Nat} (hc : c < C.chunks) (ho : on c) (st : LStep C c s t) : LRun C on s t := .tail c (.refl _) hc ho st

/-- The status of the words follows from the number of stores. -/
def WInv (C : Cfg V H) (s : LState V H) : Prop :=
  ∀ x, s.stage x ≤ 2 * C.nw ∧ ∀ k, k < C.nw → (s.word x k).2 = if C.nw + k < s.stage x then 2 else if k < s.stage x then 1 else 0

theorem winv_start : WInv C (LState.start C) := fun x => ⟨Nat.zero_le _, fun k _ => by simp [LState.start]⟩

theorem sync_same (s : LState V H) (c w : Nat) : (C.sync s c w).word = s.word ∧ (C.sync s c w).stage = s.stage ∧ (C.sync s c w).full = s.full ∧
    (∀ c' w', s.done c' w' = true → (C.sync s c w).done c' w' = true) ∧ (∀ c' w', c' ≠ c → (C.sync s c w).done c' w' = s.done c' w') := by
  unfold Cfg.sync
  split
  · exact ⟨rfl, rfl, rfl, fun _ _ h => h, fun _ _ _ => rfl⟩
  · split
    · exact ⟨rfl, rfl, rfl, fun _ _ h => h, fun _ _ _ => rfl⟩
    · refine ⟨rfl, rfl, rfl, fun c' w' h => ?_, fun c' w' h => ?_⟩
      · show (if c' = c ∧ w' = w then true else s.done c' w') = true
        rw [h]; split <;> rfl
      · show (if c' = c ∧ w' = w then true else s.done c' w') = _
        rw [if_neg (by tauto)]

theorem winv_step {s t : LState V H} {c : Nat} (hw : WInv C s) (st : LStep C c s t) : WInv C t := by
  cases st with
  | store1 h =>
    intro x
    by_cases hx : x = c
    · subst hx
      refine ⟨?_, fun k hk => ?_⟩
      · simp only [if_true]; omega
      · have := (hw x).2 k hk
        simp only [true_and, if_true]
        by_cases hk' : k = s.stage x
        · subst hk'; rw [if_pos rfl, if_neg (by omega), if_pos (by omega)]
        · rw [if_neg hk', this]
          split_ifs <;> first | rfl | (exfalso; omega)
    · have := hw x
      simpa [hx] using this
  | load w l k => exact hw
  | sync w =>
    obtain ⟨h1, h2, _⟩ := sync_same (C := C) s c w
    intro x
    rw [h1, h2]; exact hw x
  | finish => exact hw
  | store2 v h1 h2 hv =>
    intro x
    by_cases hx : x = c
    · subst hx
      refine ⟨?_, fun k hk => ?_⟩
      · simp only [if_true]; omega
      · have := (hw x).2 k hk
        simp only [true_and, if_true]
        by_cases hk' : k = s.stage x - C.nw
        · rw [if_pos hk', if_pos (by omega)]
        · rw [if_neg hk', this]
          split_ifs <;> first | rfl | (exfalso; omega)
    · have := hw x
      simpa [hx] using this

theorem winv_run {on : Nat → Prop} {s t : LState V H} (hw : WInv C s) (h : LRun C on s t) : WInv C t := by
  induction h with
  | refl => exact hw
  | tail c _ _ _ st ih => exact winv_step ih st

/-- Steps of a chunk do not concern other chunks. -/
theorem step_other {s t : LState V H} {c : Nat} (st : LStep C c s t) {x : Nat} (hx : x ≠ c) : t.stage x = s.stage x ∧ t.done x = s.done x ∧ t.word x = s.word x := by
  cases st with
  | store1 h => exact ⟨by simp [hx], rfl, by simp [hx]⟩
  | load w l k => exact ⟨rfl, rfl, rfl⟩
  | sync w =>
    obtain ⟨h1, h2, _, _, h3⟩ := sync_same (C := C) s c w
    exact ⟨by rw [h2], funext fun w' => h3 x w' hx, by rw [h1]⟩
  | finish => exact ⟨rfl, rfl, rfl⟩
  | store2 v h1 h2 hv => exact ⟨by simp [hx], rfl, by simp [hx]⟩

theorem run_other {s t : LState V H} {c : Nat} (h : LRun C (fun x => x = c) s t) {x : Nat} (hx : x ≠ c) : t.stage x = s.stage x ∧ t.done x = s.done x ∧ t.word x = s.word x := by
  induction h with
  | refl => exact ⟨rfl, rfl, rfl⟩
  | tail c' _ _ ho st ih =>
    subst ho
    obtain ⟨h1, h2, h3⟩ := step_other st hx
    exact ⟨h1.trans ih.1, h2.trans ih.2.1, h3.trans ih.2.2⟩

/-- All predecessors have published complete results. -/
def Ready (C : Cfg V H) (s : LState V H) (c : Nat) : Prop := ∀ x, C.row c ≤ x → x < c → ∀ k, k < C.nw → (s.word x k).2 = 2

theorem fetch_ready {s : LState V H} {c w l k : Nat} (h : Ready C s c) (hl : l < 32) (hk : k < C.nw) : (C.fetch s c w l k).2 = 2 := by
  unfold Cfg.fetch
  split
  · have hrel := C.rel_le c
    exact h _ (by unfold Cfg.row; omega) (by omega) k hk
  · rfl

theorem Ready.of_word {s t : LState V H} {c : Nat} (h : Ready C s c) (hw : ∀ x, x < c → t.word x = s.word x) : Ready C t c := by
  intro x h1 h2 k hk
  rw [hw x h2]; exact h x h1 h2 k hk

/-- A warp can load all words that are listed. -/
theorem load_all {c w : Nat} (hc : c < C.chunks) (hw : w < C.warps) (L : List (Nat × Nat)) : (∀ p ∈ L, p.1 < 32 ∧ p.2 < C.nw) → ∀ s : LState V H, Ready C s c → s.done c w = false →
    C.nw ≤ s.stage c → ∃ g, LRun C (fun x => x = c) s { s with got := g } ∧ (∀ p ∈ L, (g c w p.1 p.2).isSome) ∧ (∀ l k, (s.got c w l k).isSome → (g c w l k).isSome) ∧
      ∀ l k e, g c w l k = some e → s.got c w l k = some e ∨ e.2 = 2 := by
  induction L with
  | nil => intro _ s _ _ _; exact ⟨s.got, .refl _, by simp, fun _ _ h => h, fun _ _ _ h => Or.inl h⟩
  | cons p L ih =>
    intro hL s hr hd hs
    obtain ⟨hp1, hp2⟩ := hL p (by simp)
    by_cases hg : s.got c w p.1 p.2 = none
    · have st := LStep.load (C := C) (c := c) s w p.1 p.2 hw hp1 hp2 hd hg (fun _ => hs)
      obtain ⟨g, h1, h2, h3, h4⟩ := ih (fun q hq => hL q (by simp [hq])) { s with got := fun c' w' l' k' => if c' = c ∧ w' = w ∧ l' = p.1 ∧ k' = p.2 then some (C.fetch s c w p.1 p.2) else s.got c' w' l' k' } hr hd hs
      refine ⟨g, (LRun.one (on := fun x => x = c) hc rfl st).trans h1, ?_, ?_, ?_⟩
      · intro q hq
        rcases List.mem_cons.1 hq with rfl | hq
        · exact h3 _ _ (by simp)
        · exact h2 q hq
      · intro l k h
        refine h3 l k ?_
        by_cases he : l = p.1 ∧ k = p.2
        · simp [he]
        · simp only [true_and, if_neg he]; exact h
      · intro l k e h
        rcases h4 l k e h with h | h
        · by_cases he : l = p.1 ∧ k = p.2
          · simp only [true_and, if_pos he] at h
            right; rw [← Option.some.inj h]; exact fetch_ready hr hp1 hp2
          · simp only [true_and, if_neg he] at h; exact Or.inl h
        · exact Or.inr h
    · obtain ⟨g, h1, h2, h3, h4⟩ := ih (fun q hq => hL q (by simp [hq])) s hr hd hs
      refine ⟨g, h1, ?_, h3, h4⟩
      intro q hq
      rcases List.mem_cons.1 hq with rfl | hq
      · exact h3 _ _ (Option.isSome_iff_ne_none.2 hg)
      · exact h2 q hq

/-- All words of a warp -/
theorem load_warp {c w : Nat} (hc : c < C.chunks) (hw : w < C.warps) (s : LState V H) (hr : Ready C s c) (hd : s.done c w = false) (hs : C.nw ≤ s.stage c) :
    ∃ g, LRun C (fun x => x = c) s { s with got := g } ∧ (∀ l k, l < 32 → k < C.nw → (g c w l k).isSome) ∧ ∀ l k e, g c w l k = some e → s.got c w l k = some e ∨ e.2 = 2 := by
  obtain ⟨g, h1, h2, _, h4⟩ := load_all hc hw ((List.range 32).flatMap fun l => (List.range C.nw).map fun k => (l, k)) (by
    intro p hp
    simp only [List.mem_flatMap, List.mem_map, List.mem_range] at hp
    obtain ⟨l, hl, k, hk, rfl⟩ := hp
    exact ⟨hl, hk⟩) s hr hd hs
  refine ⟨g, h1, fun l k hl hk => h2 (l, k) ?_, h4⟩
  simp only [List.mem_flatMap, List.mem_map, List.mem_range]
  exact ⟨l, hl, k, hk, rfl⟩

theorem sync_reset (s : LState V H) (c w : Nat) : (C.sync s c w).done c w = true ∨ ((C.sync s c w).done = s.done ∧ ∀ l k, (C.sync s c w).got c w l k = none) := by
  unfold Cfg.sync
  split
  · right; exact ⟨rfl, fun l k => by simp⟩
  · split
    · right; exact ⟨rfl, fun l k => by simp⟩
    · left; simp

theorem sync_done {s : LState V H} {c w : Nat} (hn : 1 ≤ C.nw) (hs : ∀ l k, l < 32 → k < C.nw → ∃ h, s.got c w l k = some (h, 2)) : (C.sync s c w).done c w = true := by
  have hst : ∀ l, l < 32 → C.st s c w l = 2 := by
    intro l hl
    unfold Cfg.st status
    obtain ⟨h0, e0⟩ := hs l 0 hl (by omega)
    rw [if_pos, e0]
    · rfl
    · intro k hk
      obtain ⟨h, e⟩ := hs l k hl hk
      rw [e, e0]; rfl
  unfold Cfg.sync
  rw [if_neg, if_neg]
  · simp
  · intro h
    have := List.all_eq_true.1 h 0 (by simp)
    simp [hst 0 (by omega)] at this
  · intro h
    obtain ⟨l, hl, h⟩ := List.any_eq_true.1 h
    simp [hst l (List.mem_range.1 hl)] at h

/-- A warp can leave the loop. -/
theorem warp_done {c w : Nat} (hn : 1 ≤ C.nw) (hc : c < C.chunks) (hw : w < C.warps) (s : LState V H) (hr : Ready C s c) (hs : C.nw ≤ s.stage c) :
    ∃ t, LRun C (fun x => x = c) s t ∧ t.done c w = true ∧ t.stage = s.stage ∧ t.word = s.word ∧ ∀ w', s.done c w' = true → t.done c w' = true := by
  by_cases hd : s.done c w = true
  · exact ⟨s, .refl _, hd, rfl, rfl, fun _ h => h⟩
  have hd : s.done c w = false := by simpa using hd
  obtain ⟨g, h1, h2, h3⟩ := load_warp hc hw s hr hd hs
  have st1 := LStep.sync (C := C) (c := c) { s with got := g } w hw hd h2
  obtain ⟨a1, a2, a3, a4, a5⟩ := sync_same (C := C) { s with got := g } c w
  rcases sync_reset (C := C) { s with got := g } c w with h | ⟨h4, h5⟩
  · exact ⟨_, h1.trans (LRun.one (on := fun x => x = c) hc rfl st1), h, a2, a1, fun w' h' => a4 c w' h'⟩
  · generalize C.sync { s with got := g } c w = s1 at *
    dsimp only at a1 a2 h4
    have hd1 : s1.done c w = false := by rw [h4]; exact hd
    obtain ⟨g2, k1, k2, k3⟩ := load_warp hc hw s1 (hr.of_word fun x _ => by rw [a1]) hd1 (by rw [a2]; exact hs)
    have st2 := LStep.sync (C := C) (c := c) { s1 with got := g2 } w hw hd1 k2
    obtain ⟨b1, b2, b3, b4, b5⟩ := sync_same (C := C) { s1 with got := g2 } c w
    refine ⟨_, ((h1.trans (LRun.one (on := fun x => x = c) hc rfl st1)).trans k1).trans (LRun.one (on := fun x => x = c) hc rfl st2), ?_, by rw [b2]; exact a2, by rw [b1]; exact a1, fun w' h' => b4 c w' (a4 c w' h')⟩
    refine sync_done hn fun l k hl hk => ?_
    obtain ⟨e, he⟩ := Option.isSome_iff_exists.1 (k2 l k hl hk)
    rcases k3 l k e he with h6 | h6
    · rw [h5 l k] at h6; simp at h6
    · exact ⟨e.1, by show g2 c w l k = _; rw [he, ← h6]⟩

theorem warps_done {c : Nat} (hn : 1 ≤ C.nw) (hc : c < C.chunks) (s : LState V H) (hr : Ready C s c) (hs : C.nw ≤ s.stage c) (n : Nat) (hw : n ≤ C.warps) :
    ∃ t, LRun C (fun x => x = c) s t ∧ (∀ w, w < n → t.done c w = true) ∧ t.stage = s.stage ∧ t.word = s.word := by
  induction n with
  | zero => exact ⟨s, .refl _, fun w h => absurd h (by omega), rfl, rfl⟩
  | succ n ih =>
    obtain ⟨t, h1, h2, h3, h4⟩ := ih (by omega)
    obtain ⟨u, k1, k2, k3, k4, k5⟩ := warp_done hn hc (show n < C.warps by omega) t (hr.of_word fun x _ => by rw [h4]) (by rw [h3]; exact hs)
    refine ⟨u, h1.trans k1, fun w hw' => ?_, k3.trans h3, k4.trans h4⟩
    by_cases h : w = n
    · subst h; exact k2
    · exact k5 w (h2 w (by omega))

theorem stores1 {c : Nat} (hc : c < C.chunks) (n : Nat) : ∀ s : LState V H, C.nw ≤ s.stage c + n → s.stage c ≤ 2 * C.nw → ∃ t, LRun C (fun x => x = c) s t ∧ C.nw ≤ t.stage c ∧ t.stage c ≤ 2 * C.nw := by
  induction n with
  | zero => intro s h1 h2; exact ⟨s, .refl _, h1, h2⟩
  | succ n ih =>
    intro s h1 h2
    by_cases h : s.stage c < C.nw
    · have st := LStep.store1 (C := C) (c := c) s h
      obtain ⟨t, k1, k2, k3⟩ := ih { s with
          word := fun c' k => if c' = c ∧ k = s.stage c then (C.part k (C.val c C.leader), 1) else s.word c' k
          stage := fun c' => if c' = c then s.stage c + 1 else s.stage c' } (by show C.nw ≤ (if c = c then s.stage c + 1 else s.stage c) + n; rw [if_pos rfl]; omega)
        (by show (if c = c then s.stage c + 1 else s.stage c) ≤ _; rw [if_pos rfl]; omega)
      exact ⟨t, (LRun.one (on := fun x => x = c) hc rfl st).trans k1, k2, k3⟩
    · exact ⟨s, .refl _, by omega, h2⟩

theorem stores2 {c : Nat} (hc : c < C.chunks) (v : V) (n : Nat) : ∀ s : LState V H, s.stage c + n = 2 * C.nw → C.nw ≤ s.stage c → s.full c = some v →
    ∃ t, LRun C (fun x => x = c) s t ∧ t.stage c = 2 * C.nw ∧ t.done = s.done := by
  induction n with
  | zero => intro s h1 h2 h3; exact ⟨s, .refl _, h1, rfl⟩
  | succ n ih =>
    intro s h1 h2 h3
    have st := LStep.store2 (C := C) (c := c) s v h2 (by omega) h3
    obtain ⟨t, k1, k2, k3⟩ := ih { s with
        word := fun c' k => if c' = c ∧ k = s.stage c - C.nw then (C.part k v, 2) else s.word c' k
        stage := fun c' => if c' = c then s.stage c + 1 else s.stage c' } (by show (if c = c then s.stage c + 1 else s.stage c) + n = _; rw [if_pos rfl]; omega)
      (by show _ ≤ (if c = c then s.stage c + 1 else s.stage c); rw [if_pos rfl]; omega) h3
    exact ⟨t, (LRun.one (on := fun x => x = c) hc rfl st).trans k1, k2, k3⟩

/-- A chunk whose predecessors are complete can terminate by its own steps. -/
theorem chunk_done {c : Nat} (hn : 1 ≤ C.nw) (hwp : 1 ≤ C.warps) (hc : c < C.chunks) (s : LState V H) (hr : Ready C s c) (hst : s.stage c ≤ 2 * C.nw) :
    ∃ t, LRun C (fun x => x = c) s t ∧ C.Terminated t c := by
  obtain ⟨s1, h1, h2, h3⟩ := stores1 hc C.nw s (by omega) hst
  have hr1 : Ready C s1 c := hr.of_word fun x hx => (run_other h1 (by omega)).2.2
  obtain ⟨s2, k1, k2, k3, k4⟩ := warps_done hn hc s1 hr1 h2 C.warps (Nat.le_refl _)
  obtain ⟨s3, m1, v, m2, m3, m4⟩ : ∃ s3, LRun C (fun x => x = c) s2 s3 ∧ ∃ v, s3.full c = some v ∧ s3.stage = s2.stage ∧ s3.done = s2.done := by
    cases hf : s2.full c with
    | some v => exact ⟨s2, .refl _, v, hf, rfl, rfl⟩
    | none => exact ⟨_, .one hc rfl (LStep.finish s2 (k2 _ (by omega)) hf), _, if_pos rfl, rfl, rfl⟩
  obtain ⟨t, n1, n2, n3⟩ := stores2 hc v (2 * C.nw - s3.stage c) s3 (by rw [m3, k3]; omega) (by rw [m3, k3]; exact h2) m2
  refine ⟨t, ((h1.trans k1).trans m1).trans n1, ?_, n2⟩
  intro w hw
  rw [n3, m4]; exact k2 w hw

/-- From every state that the launch can reach, a chunk can terminate without any step of chunks that come later or belong to other rows. -/
theorem progress (hn : 1 ≤ C.nw) (hwp : 1 ≤ C.warps) (hcpb : 1 ≤ C.cpb) {c : Nat} (hc : c < C.chunks) (s : LState V H) (hw : WInv C s) :
    ∃ t, LRun C (fun x => C.row c ≤ x ∧ x ≤ c) s t ∧ ∀ x, C.row c ≤ x → x ≤ c → C.Terminated t x := by
  have hrow : C.row c + C.rel c = c := by
    have := C.rel_le c
    unfold Cfg.row; omega
  have : ∀ n, n ≤ C.rel c + 1 → ∃ t, LRun C (fun x => C.row c ≤ x ∧ x ≤ c) s t ∧ ∀ x, C.row c ≤ x → x < C.row c + n → C.Terminated t x := by
    intro n
    induction n with
    | zero => intro _; exact ⟨s, .refl _, fun x h1 h2 => absurd h2 (by omega)⟩
    | succ n ih =>
      intro hn'
      obtain ⟨t, h1, h2⟩ := ih (by omega)
      have hwt := winv_run hw h1
      have hrow' : C.row (C.row c + n) = C.row c := Cfg.row_eq hcpb (by omega) (by omega)
      obtain ⟨u, k1, k2⟩ := chunk_done hn hwp (show C.row c + n < C.chunks by omega) t (by
        intro x hx1 hx2 k hk
        rw [hrow'] at hx1
        rw [(hwt x).2 k hk, (h2 x hx1 hx2).2, if_pos (by omega)]) (hwt _).1
      refine ⟨u, h1.trans (k1.mono ?_), fun x hx1 hx2 => ?_⟩
      · intro x hx
        have : x = C.row c + n := hx
        omega
      · by_cases hx : x = C.row c + n
        · subst hx; exact k2
        · obtain ⟨e1, e2, _⟩ := run_other k1 hx
          have := h2 x hx1 (by omega)
          exact ⟨fun w hw => by rw [e2]; exact this.1 w hw, by rw [e1]; exact this.2⟩
  obtain ⟨t, h1, h2⟩ := this (C.rel c + 1) (Nat.le_refl _)
  exact ⟨t, h1, fun x hx1 hx2 => h2 x hx1 (by omega)⟩

end Verif.Cuda
