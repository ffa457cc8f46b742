import Verif.Cuda.Comb
import Verif.Cuda.Look

/-!
# Correctness of the look-back, for every interleaving
-/
namespace Verif.Cuda

variable {V H : Type} {C : Cfg V H} {f : Nat → V} {P : Nat → Finset Nat}

/-- First chunk of the row -/
def Cfg.row (C : Cfg V H) (c : Nat) : Nat := c - C.rel c

/-- Assumptions on the configuration: `P c` are the elements of chunk `c` -/
structure Cfg.Ok (C : Cfg V H) (f : Nat → V) (P : Nat → Finset Nat) : Prop where
  warps : 1 ≤ C.warps
  words : 1 ≤ C.nw
  cpb : 1 ≤ C.cpb
  join : ∀ (g : Nat → Option H) (v : V), (∀ k, k < C.nw → g k = some (C.part k v)) → C.join g = v
  apart : Apart P
  warp : WarpRed C.red C.init C.combine
  part : ∀ c, c < C.chunks → On C.red C.init f (P c) (C.val c C.leader)

theorem Cfg.rel_le (C : Cfg V H) (c : Nat) : C.rel c ≤ c := Nat.mod_le _ _

/-- Chunks of the same row -/
theorem Cfg.row_eq {C : Cfg V H} {c x : Nat} (h0 : 1 ≤ C.cpb) (h1 : C.row c ≤ x) (h2 : x ≤ c) : C.row x = C.row c := by
  unfold Cfg.row Cfg.rel at *
  have e1 := Nat.div_add_mod c C.cpb
  have e2 := Nat.div_add_mod x C.cpb
  have hm := Nat.mod_lt c (show 0 < C.cpb by omega)
  have hmx := Nat.mod_lt x (show 0 < C.cpb by omega)
  have : x / C.cpb = c / C.cpb := by
    apply Nat.le_antisymm
    · exact Nat.div_le_div_right h2
    · rw [Nat.le_div_iff_mul_le (by omega), Nat.mul_comm]; omega
  rw [this] at e2
  omega

/-- The content of a word of chunk `x` -/
def Fact (C : Cfg V H) (s : LState V H) (x k : Nat) (e : H × Nat) : Prop :=
  e.2 = 0 ∨ (e.2 = 1 ∧ e.1 = C.part k (C.val x C.leader)) ∨ (e.2 = 2 ∧ ∃ v, s.full x = some v ∧ e.1 = C.part k v)

/-- The chunks that lane `l` of chunk `c` has combined after `n` rounds -/
def walked (c l n : Nat) : Finset Nat := (Finset.range n).image fun j => c + l - 32 * (j + 1)

/-- The invariant -/
structure LInv (C : Cfg V H) (f : Nat → V) (P : Nat → Finset Nat) (s : LState V H) : Prop where
  word : ∀ x k, x < C.chunks → Fact C s x k (s.word x k)
  full : ∀ x v, x < C.chunks → s.full x = some v → On C.red C.init f ((Finset.Icc (C.row x) x).biUnion P) v
  got : ∀ c w l k e, c < C.chunks → w < C.warps → l < 32 → k < C.nw → s.done c w = false → s.got c w l k = some e →
    if 32 * (s.round c w + 1) ≤ C.rel c + l then Fact C s (c + l - 32 * (s.round c w + 1)) k e else e = (C.part k C.init, 2)
  round : ∀ c w, c < C.chunks → w < C.warps → 32 * s.round c w ≤ C.rel c
  pre : ∀ c w l, c < C.chunks → w < C.warps → l < 32 → s.done c w = false → On C.red C.init f ((walked c l (s.round c w)).biUnion P) (s.pre c w l)
  done : ∀ c w, c < C.chunks → w < C.warps → s.done c w = true → ∃ I : Nat → Finset Nat, (∀ i j, i ≠ j → Disjoint (I i) (I j)) ∧
    (Finset.range 32).biUnion I = Finset.Ico (C.row c) c ∧ ∀ l, l < 32 → On C.red C.init f ((I l).biUnion P) (s.pre c w l)

theorem Fact.mono {s t : LState V H} {x k : Nat} {e : H × Nat} (h : Fact C s x k e) (hf : ∀ v, s.full x = some v → t.full x = some v) : Fact C t x k e := by
  rcases h with h | h | ⟨h, v, hv, h2⟩
  · exact Or.inl h
  · exact Or.inr (Or.inl h)
  · exact Or.inr (Or.inr ⟨h, v, hf v hv, h2⟩)

theorem inv_start (ok : C.Ok f P) : LInv C f P (LState.start C) where
  word := fun x k _ => Or.inl rfl
  full := fun x v _ h => by simp [LState.start] at h
  got := fun c w l k e _ _ _ _ _ h => by simp [LState.start] at h
  round := fun c w _ _ => by simp [LState.start]
  pre := fun c w l _ _ _ _ => by
    simp only [LState.start, walked, Finset.range_zero, Finset.image_empty, Finset.biUnion_empty]
    exact On.empty
  done := fun c w _ _ h => by simp [LState.start] at h

/-- What the words of a lane say together -/
theorem status_spec (ok : C.Ok f P) {s : LState V H} {x : Nat} {g : Nat → Option (H × Nat)} (hs : ∀ k, k < C.nw → (g k).isSome) (hf : ∀ k e, k < C.nw → g k = some e → Fact C s x k e) :
    (status C.nw g ≠ 0 → status C.nw g = 1 ∨ status C.nw g = 2) ∧
    (status C.nw g = 1 → C.join (fun k => (g k).map Prod.fst) = C.val x C.leader) ∧
    (status C.nw g = 2 → ∃ v, s.full x = some v ∧ C.join (fun k => (g k).map Prod.fst) = v) := by
  have hw := ok.words
  obtain ⟨e0, he0⟩ := Option.isSome_iff_exists.1 (hs 0 (by omega))
  have hst : status C.nw g ≠ 0 → status C.nw g = e0.2 ∧ ∀ k, k < C.nw → ∃ e, g k = some e ∧ e.2 = e0.2 := by
    unfold status
    intro h
    split at h
    · next hall =>
      rw [if_pos hall, he0]
      refine ⟨rfl, fun k hk => ?_⟩
      obtain ⟨e, he⟩ := Option.isSome_iff_exists.1 (hs k hk)
      have := hall k hk
      rw [he, he0] at this
      exact ⟨e, he, Option.some.inj this⟩
    · exact absurd rfl h
  have h0 := hf 0 e0 (by omega) he0
  refine ⟨fun h => ?_, fun h => ?_, fun h => ?_⟩
  · obtain ⟨h1, _⟩ := hst h
    rw [h1] at h ⊢
    rcases h0 with h0 | h0 | h0
    · exact absurd h0 h
    · exact Or.inl h0.1
    · exact Or.inr h0.1
  · obtain ⟨h1, h2⟩ := hst (by omega)
    refine ok.join _ _ fun k hk => ?_
    obtain ⟨e, he, h3⟩ := h2 k hk
    rw [he]
    rcases hf k e hk he with h4 | h4 | h4
    · omega
    · rw [Option.map_some, h4.2]
    · omega
  · obtain ⟨h1, h2⟩ := hst (by omega)
    rcases h0 with h0 | h0 | ⟨_, v, hv, _⟩
    · omega
    · omega
    refine ⟨v, hv, ok.join _ _ fun k hk => ?_⟩
    obtain ⟨e, he, h3⟩ := h2 k hk
    rw [he]
    rcases hf k e hk he with h4 | h4 | ⟨_, v', hv', h4⟩
    · omega
    · omega
    · rw [hv] at hv'; rw [Option.map_some, h4, Option.some.inj hv']

theorem mem_walked {c l n x : Nat} (hl : l < 32) (hn : 32 * n ≤ c) : x ∈ walked c l n ↔ x < c ∧ c - 1 - x < 32 * n ∧ (c - 1 - x) % 32 = 31 - l := by
  unfold walked
  simp only [Finset.mem_image, Finset.mem_range]
  constructor
  · rintro ⟨j, hj, rfl⟩; omega
  · rintro ⟨h1, h2, h3⟩
    exact ⟨(c - 1 - x) / 32, by omega, by omega⟩

/-- Lanes that look beyond the start of the row -/
theorem status_before (ok : C.Ok f P) {g : Nat → Option (H × Nat)} (hs : ∀ k, k < C.nw → g k = some (C.part k C.init, 2)) :
    status C.nw g = 2 ∧ C.join (fun k => (g k).map Prod.fst) = C.init := by
  have hw := ok.words
  refine ⟨?_, ok.join _ _ fun k hk => by rw [hs k hk]; rfl⟩
  unfold status
  rw [if_pos]
  · rw [hs 0 (by omega)]; rfl
  · intro k hk; rw [hs k hk, hs 0 (by omega)]; rfl

theorem sync_inv (ok : C.Ok f P) {s : LState V H} (inv : LInv C f P s) {c w : Nat} (hc : c < C.chunks) (hw : w < C.warps) (hd : s.done c w = false)
    (hall : ∀ l k, l < 32 → k < C.nw → (s.got c w l k).isSome) : LInv C f P (C.sync s c w) := by
  have hrel := C.rel_le c
  have hround := inv.round c w hc hw
  -- what a lane has loaded
  have hlane : ∀ l, l < 32 → (C.rel c + l < 32 * (s.round c w + 1) → C.st s c w l = 2 ∧ C.pred s c w l = C.init) ∧
      (32 * (s.round c w + 1) ≤ C.rel c + l → (C.st s c w l ≠ 0 → C.st s c w l = 1 ∨ C.st s c w l = 2) ∧
        (C.st s c w l = 1 → C.pred s c w l = C.val (c + l - 32 * (s.round c w + 1)) C.leader) ∧
        (C.st s c w l = 2 → ∃ v, s.full (c + l - 32 * (s.round c w + 1)) = some v ∧ C.pred s c w l = v)) := by
    intro l hl
    constructor
    · intro hlt
      refine status_before ok fun k hk => ?_
      obtain ⟨e, he⟩ := Option.isSome_iff_exists.1 (hall l k hl hk)
      have := inv.got c w l k e hc hw hl hk hd he
      rw [if_neg (by omega)] at this
      rw [he, this]
    · intro hge
      refine status_spec ok (hall l · hl) fun k e hk he => ?_
      have := inv.got c w l k e hc hw hl hk hd he
      rwa [if_pos hge] at this
  generalize hn : s.round c w = n at *
  have hpre := fun l hl => inv.pre c w l hc hw hl hd
  rw [hn] at hpre
  unfold Cfg.sync
  split
  · -- a predecessor is not ready
    refine ⟨inv.word, inv.full, ?_, inv.round, inv.pre, inv.done⟩
    intro c' w' l k e hc' hw' hl hk hd' he
    by_cases h : c' = c ∧ w' = w
    · simp only [if_pos h] at he; simp at he
    · simp only [if_neg h] at he
      exact inv.got c' w' l k e hc' hw' hl hk hd' he
  · next h0 =>
    have h0' : ∀ l, l < 32 → C.st s c w l ≠ 0 := by
      intro l hl h
      exact h0 (List.any_eq_true.2 ⟨l, List.mem_range.2 hl, by simpa using h⟩)
    split
    · next h2 =>
      have h2' : ∀ l, l < 32 → C.st s c w l ≠ 2 := by
        intro l hl
        simpa using List.all_eq_true.1 h2 l (List.mem_range.2 hl)
      have hge : ∀ l, l < 32 → 32 * (n + 1) ≤ C.rel c + l := by
        intro l hl
        by_contra hlt
        exact h2' l hl ((hlane l hl).1 (by omega)).1
      have h00 := hge 0 (by omega)
      refine ⟨inv.word, inv.full, ?_, ?_, ?_, fun c' w' hc' hw' hd' => ?_⟩
      rotate_left 3
      · have h : ¬ (c' = c ∧ w' = w) := by
          rintro ⟨rfl, rfl⟩
          rw [show s.done c' w' = true from hd'] at hd; simp at hd
        simp only [if_neg h]
        exact inv.done c' w' hc' hw' hd'
      · intro c' w' l k e hc' hw' hl hk hd' he
        by_cases h : c' = c ∧ w' = w
        · simp only [if_pos h] at he; simp at he
        · simp only [if_neg h] at he ⊢
          exact inv.got c' w' l k e hc' hw' hl hk hd' he
      · intro c' w' hc' hw'
        by_cases h : c' = c ∧ w' = w
        · simp only [if_pos h, hn]; rw [h.1]; omega
        · simp only [if_neg h]; exact inv.round c' w' hc' hw'
      · intro c' w' l hc' hw' hl hd'
        by_cases h : c' = c ∧ w' = w
        · obtain ⟨rfl, rfl⟩ := h
          simp only [and_self, if_true, hn]
          have hst : C.st s c' w' l = 1 := by
            rcases ((hlane l hl).2 (hge l hl)).1 (h0' l hl) with h | h
            · exact h
            · exact absurd h (h2' l hl)
          rw [((hlane l hl).2 (hge l hl)).2.1 hst]
          have e1 : walked c' l (n + 1) = walked c' l n ∪ {c' + l - 32 * (n + 1)} := by
            ext x
            rw [Finset.mem_union, mem_walked hl (by omega), mem_walked hl (by omega), Finset.mem_singleton]
            omega
          rw [e1]
          refine On.owners ok.apart ?_ (hpre l hl) ?_
          · rw [Finset.disjoint_singleton_right, mem_walked hl (by omega)]; omega
          · rw [Finset.singleton_biUnion]
            exact ok.part _ (by omega)
        · simp only [if_neg h]
          exact inv.pre c' w' l hc' hw' hl hd'
    · next h2 =>
      obtain ⟨l0, hl0, hst0⟩ : ∃ l, l < 32 ∧ C.st s c w l = 2 := by
        by_contra hno
        refine h2 (List.all_eq_true.2 fun l hl => ?_)
        have := fun h => hno ⟨l, List.mem_range.1 hl, h⟩
        simpa using this
      have hi2 : C.st s c w (Nat.findGreatest (fun l => C.st s c w l = 2) 31) = 2 := Nat.findGreatest_spec (P := fun l => C.st s c w l = 2) (by omega : l0 ≤ 31) hst0
      have hile : Nat.findGreatest (fun l => C.st s c w l = 2) 31 ≤ 31 := Nat.findGreatest_le 31
      have higt : ∀ l, Nat.findGreatest (fun l => C.st s c w l = 2) 31 < l → l < 32 → C.st s c w l ≠ 2 := fun l h1 h2 => Nat.findGreatest_is_greatest (P := fun l => C.st s c w l = 2) h1 (by omega)
      generalize Nat.findGreatest (fun l => C.st s c w l = 2) 31 = i at *
      refine ⟨inv.word, inv.full, ?_, inv.round, ?_, ?_⟩
      · intro c' w' l k e hc' hw' hl hk hd' he
        by_cases h : c' = c ∧ w' = w
        · simp only [if_pos h] at hd'; simp at hd'
        · simp only [if_neg h] at hd'
          exact inv.got c' w' l k e hc' hw' hl hk hd' he
      · intro c' w' l hc' hw' hl hd'
        by_cases h : c' = c ∧ w' = w
        · simp only [if_pos h] at hd'; simp at hd'
        · simp only [if_neg h] at hd' ⊢
          exact inv.pre c' w' l hc' hw' hl hd'
      · intro c' w' hc' hw' hd'
        by_cases h : c' = c ∧ w' = w
        · obtain ⟨rfl, rfl⟩ := h
          simp only [and_self, if_true]
          refine ⟨fun l => (Finset.Ico (C.row c') c').filter fun x => (if c' - 1 - x < 32 * n + 31 - i then 31 - (c' - 1 - x) % 32 else i) = l, ?_, ?_, ?_⟩
          · intro a b hab
            rw [Finset.disjoint_left]
            intro x hx hy
            exact hab ((Finset.mem_filter.1 hx).2.symm.trans (Finset.mem_filter.1 hy).2)
          · ext x
            simp only [Finset.mem_biUnion, Finset.mem_range, Finset.mem_filter]
            constructor
            · rintro ⟨_, _, h, _⟩; exact h
            · intro h; exact ⟨_, by split <;> omega, h, rfl⟩
          · intro l hl
            have hrow : C.row c' = c' - C.rel c' := rfl
            beta_reduce
            by_cases hil : i ≤ l
            · rw [if_pos hil]
              by_cases hge : 32 * (n + 1) ≤ C.rel c' + l
              · have hl2 := (hlane l hl).2 hge
                by_cases hli : l = i
                · subst hli
                  obtain ⟨v, hv, hp⟩ := hl2.2.2 hi2
                  rw [hp]
                  have hfull := inv.full _ v (by omega) hv
                  rw [Cfg.row_eq (c := c') ok.cpb (by omega) (by omega)] at hfull
                  have e1 : ((Finset.Ico (C.row c') c').filter fun x => (if c' - 1 - x < 32 * n + 31 - l then 31 - (c' - 1 - x) % 32 else l) = l) =
                      walked c' l n ∪ Finset.Icc (C.row c') (c' + l - 32 * (n + 1)) := by
                    ext x
                    rw [Finset.mem_union, mem_walked hl (by omega), Finset.mem_filter, Finset.mem_Ico, Finset.mem_Icc, hrow]
                    split <;> omega
                  rw [e1]
                  refine On.owners ok.apart ?_ (hpre l hl) hfull
                  rw [Finset.disjoint_left]
                  intro x hx
                  rw [mem_walked hl (by omega)] at hx
                  rw [Finset.mem_Icc]; omega
                · have hst : C.st s c' w' l = 1 := by
                    rcases hl2.1 (h0' l hl) with h | h
                    · exact h
                    · exact absurd h (higt l (by omega) hl)
                  rw [hl2.2.1 hst]
                  have e1 : ((Finset.Ico (C.row c') c').filter fun x => (if c' - 1 - x < 32 * n + 31 - i then 31 - (c' - 1 - x) % 32 else i) = l) =
                      walked c' l n ∪ {c' + l - 32 * (n + 1)} := by
                    ext x
                    rw [Finset.mem_union, mem_walked hl (by omega), Finset.mem_filter, Finset.mem_Ico, Finset.mem_singleton, hrow]
                    split <;> omega
                  rw [e1]
                  refine On.owners ok.apart ?_ (hpre l hl) ?_
                  · rw [Finset.disjoint_singleton_right, mem_walked hl (by omega)]; omega
                  · rw [Finset.singleton_biUnion]
                    exact ok.part _ (by omega)
              · have hl1 := (hlane l hl).1 (by omega)
                have hli : l = i := by
                  by_contra hne
                  exact higt l (by omega) hl hl1.1
                subst hli
                rw [hl1.2]
                have e1 : ((Finset.Ico (C.row c') c').filter fun x => (if c' - 1 - x < 32 * n + 31 - l then 31 - (c' - 1 - x) % 32 else l) = l) = walked c' l n ∪ ∅ := by
                  ext x
                  rw [Finset.union_empty, mem_walked hl (by omega), Finset.mem_filter, Finset.mem_Ico, hrow]
                  split <;> omega
                rw [e1]
                refine On.owners ok.apart (Finset.disjoint_empty_right _) (hpre l hl) ?_
                rw [Finset.biUnion_empty]
                exact On.empty
            · rw [if_neg hil]
              have e1 : ((Finset.Ico (C.row c') c').filter fun x => (if c' - 1 - x < 32 * n + 31 - i then 31 - (c' - 1 - x) % 32 else i) = l) = walked c' l n := by
                ext x
                rw [mem_walked hl (by omega), Finset.mem_filter, Finset.mem_Ico, hrow]
                split <;> omega
              rw [e1]
              exact hpre l hl
        · simp only [if_neg h] at hd' ⊢
          exact inv.done c' w' hc' hw' hd'

/-- What a warp knows after the look-back -/
theorem prefix_spec (ok : C.Ok f P) {s : LState V H} (inv : LInv C f P s) {c w l : Nat} (hc : c < C.chunks) (hw : w < C.warps) (hl : l < 32) (hd : s.done c w = true) :
    On C.red C.init f ((Finset.Ico (C.row c) c).biUnion P) (C.combine (s.pre c w) l) := by
  obtain ⟨I, h1, h2, h3⟩ := inv.done c w hc hw hd
  have := ok.warp f (fun l => (I l).biUnion P) (s.pre c w) (fun i j hij => ok.apart.biUnion (h1 i j hij)) h3 l hl
  rw [← h2, Finset.biUnion_biUnion]
  exact this

theorem step_inv (ok : C.Ok f P) {s t : LState V H} (inv : LInv C f P s) {c : Nat} (hc : c < C.chunks) (st : LStep C c s t) : LInv C f P t := by
  cases st with
  | store1 h =>
    refine ⟨?_, inv.full, inv.got, inv.round, inv.pre, inv.done⟩
    intro x k hx
    by_cases h : x = c ∧ k = s.stage c
    · simp only [if_pos h]; rw [h.1]; exact Or.inr (Or.inl ⟨rfl, rfl⟩)
    · simp only [if_neg h]; exact inv.word x k hx
  | load w l k hw hl hk hd hg hlead =>
    refine ⟨inv.word, inv.full, ?_, inv.round, inv.pre, inv.done⟩
    intro c' w' l' k' e hc' hw' hl' hk' hd' he
    by_cases h : c' = c ∧ w' = w ∧ l' = l ∧ k' = k
    · simp only [if_pos h] at he
      obtain ⟨rfl, rfl, rfl, rfl⟩ := h
      rw [← Option.some.inj he]
      unfold Cfg.fetch
      have := C.rel_le c'
      by_cases hge : 32 * (s.round c' w' + 1) ≤ C.rel c' + l'
      · simp only [if_pos hge]; exact inv.word _ _ (by omega)
      · simp only [if_neg hge]
    · simp only [if_neg h] at he
      exact inv.got c' w' l' k' e hc' hw' hl' hk' hd' he
  | sync w hw hd hall => exact sync_inv ok inv hc hw hd hall
  | finish hd hf =>
    have hmono : ∀ (x : Nat) (v : V), s.full x = some v →
        (if x = c then some (C.red (C.val c C.leader) (C.combine (s.pre c (C.warps - 1)) 31)) else s.full x) = some v := by
      intro x v h
      by_cases hx : x = c
      · subst hx; rw [hf] at h; simp at h
      · rw [if_neg hx]; exact h
    refine ⟨fun x k hx => (inv.word x k hx).mono (hmono x), ?_, ?_, inv.round, inv.pre, inv.done⟩
    · intro x v hx hv
      by_cases h : x = c
      · subst h
        simp only [if_true] at hv
        rw [← Option.some.inj hv]
        have hwp := ok.warps
        have h1 := prefix_spec ok inv hc (show C.warps - 1 < C.warps by omega) (show 31 < 32 by omega) hd
        have e : Finset.Icc (C.row x) x = {x} ∪ Finset.Ico (C.row x) x := by
          have : C.row x ≤ x := Nat.sub_le _ _
          ext y; simp only [Finset.mem_Icc, Finset.mem_union, Finset.mem_singleton, Finset.mem_Ico]; omega
        rw [e]
        refine On.owners ok.apart (by simp) ?_ h1
        rw [Finset.singleton_biUnion]
        exact ok.part x hc
      · simp only [if_neg h] at hv; exact inv.full x v hx hv
    · intro c' w' l k e hc' hw' hl hk hd' he
      have := inv.got c' w' l k e hc' hw' hl hk hd' he
      by_cases hge : 32 * (s.round c' w' + 1) ≤ C.rel c' + l
      · rw [if_pos hge] at this ⊢
        exact this.mono (hmono _)
      · rw [if_neg hge] at this ⊢; exact this
  | store2 v h1 h2 hv =>
    refine ⟨?_, inv.full, inv.got, inv.round, inv.pre, inv.done⟩
    intro x k hx
    by_cases h : x = c ∧ k = s.stage c - C.nw
    · simp only [if_pos h]
      obtain ⟨rfl, _⟩ := h
      exact Or.inr (Or.inr ⟨rfl, v, hv, rfl⟩)
    · simp only [if_neg h]; exact inv.word x k hx

theorem run_inv (ok : C.Ok f P) {on : Nat → Prop} {s t : LState V H} (inv : LInv C f P s) (h : LRun C on s t) : LInv C f P t := by
  induction h with
  | refl => exact inv
  | tail c _ hc _ st ih => exact step_inv ok ih hc st

end Verif.Cuda
