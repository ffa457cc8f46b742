import Verif.CudaGemm.Main

/-!
# The host side: choice of tiles, accesses of a launch
-/
namespace Verif.CudaGemm
open Verif.Gemm (Elem Dim Problem Batch FType points offset decode countPoints dropOnes foldM foldK)
open Verif.Llvm (add32 mul32 add32_eq mul32_eq cdiv ceilDiv32 ceilDiv32_eq lt_cdiv)

variable {V : Type}

/-- What is checked before a tile is selected -/
def Selectable (ts M N aInner bInner bm : Nat) : Prop :=
  (∃ l, l ≤ 3 ∧ bm = 8 * 2 ^ l) ∧ vecWidth ts bm ∣ aInner ∧ vecWidth ts bm ∣ bInner ∧ vecWidth ts bm ∣ N ∧ ceilDiv32 M bm ≤ 65535

theorem selectTile_spec {sm ts M N a b gc : Nat} {avail : Nat → Bool} : ∀ (ls : List Nat) (sel : Nat), (∀ l ∈ ls, l ≤ 3) →
    (sel = 0 ∨ Selectable ts M N a b sel) → selectTile sm ts M N a b gc avail ls sel = 0 ∨
      Selectable ts M N a b (selectTile sm ts M N a b gc avail ls sel)
  | [], sel, _, h => h
  | l :: ls, sel, hl, h => by
    have ih := fun sel => selectTile_spec (sm := sm) (gc := gc) (avail := avail) (ts := ts) (M := M) (N := N) (a := a) (b := b) ls sel
      (fun l' h' => hl l' (List.mem_cons_of_mem _ h'))
    unfold selectTile
    dsimp only
    generalize (if 8 * 2 ^ l = 64 then mul32 3 sm else sm) = T
    split
    · exact ih sel h
    · rename_i h1
      push Not at h1
      split
      · exact ih sel h
      · rename_i h2
        split
        · exact ih sel h
        · have good : Selectable ts M N a b (8 * 2 ^ l) :=
            ⟨⟨l, hl l List.mem_cons_self, rfl⟩, Nat.dvd_of_mod_eq_zero h1.1, Nat.dvd_of_mod_eq_zero h1.2.1, Nat.dvd_of_mod_eq_zero h1.2.2, by omega⟩
          have h3 : (if sel = 0 then 8 * 2 ^ l else sel) = 0 ∨ Selectable ts M N a b (if sel = 0 then 8 * 2 ^ l else sel) := by
            split
            · exact .inr good
            · exact h
          split
          · exact ih _ h3
          · split
            · exact ih _ (.inr good)
            · exact ih _ h3

theorem selectTile_ne {sm ts M N a b gc : Nat} {avail : Nat → Bool} : ∀ (ls : List Nat) (sel : Nat), sel ≠ 0 →
    selectTile sm ts M N a b gc avail ls sel ≠ 0
  | [], _, h => h
  | l :: ls, sel, h => by
    have ih := fun sel => selectTile_ne (sm := sm) (gc := gc) (avail := avail) (ts := ts) (M := M) (N := N) (a := a) (b := b) ls sel
    have h2 : 8 * 2 ^ l ≠ 0 := by positivity
    unfold selectTile
    dsimp only
    rw [if_neg h]
    repeat' split
    all_goals first | exact ih _ h | exact ih _ h2

/-- The tiles are among those for which kernels exist. -/
theorem tile_ok {type : FType} {l : Nat} (hl : l ≤ 3) : Tile.OK ⟨8 * 2 ^ l, vecWidth (tsize type) (8 * 2 ^ l)⟩ := by
  have : l = 0 ∨ l = 1 ∨ l = 2 ∨ l = 3 := by omega
  rcases this with rfl | rfl | rfl | rfl <;> cases type <;>
    exact ⟨by decide, by decide, by decide, by decide, by decide, by decide⟩

/-- What the host side guarantees -/
structure FromHost (p : Launch) (g : Grid) : Prop where
  tile : p.tile.OK
  a : p.tile.W ∣ if p.At then p.M else p.K
  b : p.tile.W ∣ if p.Bt then p.K else p.N
  n : p.tile.W ∣ p.N
  grid : g = ⟨ceilDiv32 p.N p.tile.BM, ceilDiv32 p.M p.tile.BM, g.z⟩
  y : g.y ≤ 65535
  z : g.z ≤ 65535 ∧ countPoints p.grid 1 = some g.z
  red : ∃ n, countPoints p.red 1 = some n

theorem fromHost {sm : Nat} {avail : Nat → Bool} {type : FType} {At Bt : Bool} {M N K : Nat} {grid red : List Dim} {p : Launch} {g : Grid}
    (h : cudaGemm sm avail type At Bt M N K grid red = .launch p g) :
    FromHost p g ∧ p.problem = ⟨At, Bt, M, N, K, grid, red⟩ ∧ ¬ (At = true ∧ Bt = true) := by
  unfold cudaGemm at h
  split at h
  · simp at h
  · rename_i hT
    split at h
    · rename_i gc rc e1 e2
      have sel := selectTile_spec (sm := sm) (gc := gc) (avail := avail) (ts := tsize type) (M := M) (N := N) (a := if At then M else K)
        (b := if Bt then K else N) [0, 1, 2, 3] 0 (by decide) (.inl rfl)
      dsimp only at h
      generalize selectTile sm (tsize type) M N (if At then M else K) (if Bt then K else N) gc avail [0, 1, 2, 3] 0 = bm at *
      by_cases h0 : bm = 0
      · rw [if_pos h0] at h; simp at h
      · rw [if_neg h0] at h
        by_cases hz : gc > 65535
        · rw [if_pos hz] at h; simp at h
        · rw [if_neg hz] at h
          rcases sel with h1 | ⟨⟨l, hl, e⟩, s1, s2, s3, s4⟩
          · exact absurd h1 h0
          · injection h with hp hg
            subst hp hg
            refine ⟨⟨?_, s1, s2, s3, rfl, s4, ⟨by dsimp only; omega, e1⟩, ⟨_, e2⟩⟩, rfl, by simpa using hT⟩
            rw [e]
            exact tile_ok hl
    · simp at h

/-! ### Existence of executions -/

theorem runs_exists {e : Elem V} {p : Launch} {A B : Nat → V} {m0 n0 : Nat} : ∀ (l : List Step) (s : State V), ∃ s', Runs e p A B m0 n0 l s s'
  | [], s => ⟨s, rfl⟩
  | st :: l, s => by
    obtain ⟨s', h⟩ := runs_exists (e := e) (p := p) (A := A) (B := B) (m0 := m0) (n0 := n0) l
      ⟨apply ((p.slabA m0 st).stores e.zero A) s.sA, apply ((p.slabB n0 st).stores e.zero B) s.sB,
        compute e p.tile (apply ((p.slabA m0 st).stores e.zero A) s.sA) (apply ((p.slabB n0 st).stores e.zero B) s.sB) s.acc⟩
    exact ⟨s', _, _, List.Perm.refl _, List.Perm.refl _, h⟩

theorem exec_exists (e : Elem V) (p : Launch) (g : Grid) (A B C : Nat → V) : ∃ C', p.Exec e g A B C C' := by
  let init : Nat × Nat × Nat → State V := fun _ => ⟨fun _ => e.zero, fun _ => e.zero, fun _ _ _ => e.zero⟩
  have h := fun b : Nat × Nat × Nat => runs_exists (e := e) (p := p) (A := A) (B := B) (m0 := mul32 b.2.1 p.tile.BM)
    (n0 := mul32 b.1 p.tile.BM) (p.steps b.2.2) (init b)
  choose final hf using h
  exact ⟨_, init, final, _, fun _ => rfl, fun b _ => hf b, List.Perm.refl _, rfl⟩

/-! ### Accesses -/

theorem steps_mem {p : Launch} (hr : ∀ d ∈ p.red, 0 < d.extent) (hp : points p.red < 2 ^ 32) {z : Nat} {st : Step} (h : st ∈ p.steps z) :
    ∃ q, q < points p.red ∧ st.a = offset Dim.aStride p.grid z + offset Dim.aStride p.red q ∧
      st.b = offset Dim.bStride p.grid z + offset Dim.bStride p.red q := by
  unfold Launch.steps at h
  rw [rCount_eq _ _ hr (by omega), Nat.one_mul] at h
  simp only [List.mem_flatMap, List.mem_append, List.mem_map, List.mem_range] at h
  obtain ⟨r, h1, h2⟩ := h
  refine ⟨r, h1, ?_⟩
  rw [redOffset_eq h1, Verif.Gemm.decode_eq] at h2
  rcases h2 with ⟨t, _, rfl⟩ | h2
  · exact ⟨rfl, rfl⟩
  · split at h2
    · simp only [List.mem_singleton] at h2
      subst h2
      exact ⟨rfl, rfl⟩
    · simp at h2

theorem offset_dvd {w : Nat} {f : Dim → Nat} : ∀ {l : List Dim} {x : Nat}, (∀ d ∈ l, w ∣ f d) → w ∣ offset f l x
  | [], x, _ => by simp [offset]
  | d :: l, x, h => by
    simp only [offset]
    exact Nat.dvd_add (Dvd.dvd.mul_left (h d List.mem_cons_self) _) (offset_dvd (fun d' h' => h d' (List.mem_cons_of_mem _ h')))

section
variable {p : Launch} {g : Grid} (hh : FromHost p g) (hl : p.Limits) (hr : ∀ d ∈ p.red, 0 < d.extent) (hp : points p.red < 2 ^ 32)
include hh hl hr hp

/-- All reads of the first operand are reads of its entries, and they are aligned. -/
theorem readsA {m0 z : Nat} (hm : m0 < p.M) (hd : p.tile.BM ∣ m0) (hz : z < points p.grid) {st : Step} (hst : st ∈ p.steps z)
    {q : Nat × Nat} (hq : q ∈ (p.slabA m0 st).reads) :
    (∀ x, q.1 ≤ x → x < q.1 + q.2 → p.problem.InA x) ∧ (Aligned p.tile.W p.problem → q.2 ≠ 1 → p.tile.W ∣ q.1) := by
  have hs := steps_ok (by have := hl.k; omega) st hst
  obtain ⟨s1, s2⟩ := slabA_ok hh.tile hl hs hm
  obtain ⟨r1, r2⟩ := Slab.reads_spec s1 s2 hq
  obtain ⟨t, ht, ha, _⟩ := steps_mem hr hp hst
  have hA := hh.a
  have hal : Aligned p.tile.W p.problem → p.tile.W ∣ st.a := by
    intro h
    rw [ha]
    exact Nat.dvd_add (offset_dvd (fun d hd => (h d (.inl hd)).1)) (offset_dvd (fun d hd => (h d (.inr hd)).1))
  unfold Launch.slabA mkSlab at r1 r2
  split at r1
  · rename_i hAt
    rw [if_pos hAt] at hA
    simp only [if_pos hAt] at r2
    refine ⟨?_, fun h => r2 (hal h) hA (dvd_trans hh.tile.divBM hd)⟩
    intro x h1 h2
    obtain ⟨r, c, h3, h4, _, _, rfl⟩ := r1 x h1 h2
    refine ⟨z, t, m0 + c, st.k0 + r, hz, ht, h4, h3, ?_⟩
    dsimp only
    rw [ha]
    unfold Problem.addrA
    rw [if_pos (show p.problem.At = true from hAt)]
    rfl
  · rename_i hAt
    rw [if_neg hAt] at hA
    simp only [if_neg hAt] at r2
    refine ⟨?_, fun h => r2 (hal h) hA (dvd_trans hh.tile.d16 hs.dvd)⟩
    intro x h1 h2
    obtain ⟨r, c, h3, h4, _, _, rfl⟩ := r1 x h1 h2
    refine ⟨z, t, m0 + r, st.k0 + c, hz, ht, h3, h4, ?_⟩
    dsimp only
    rw [ha]
    unfold Problem.addrA
    rw [if_neg (show ¬ p.problem.At = true from hAt)]
    rfl

/-- All reads of the second operand are reads of its entries, and they are aligned. -/
theorem readsB {n0 z : Nat} (hn : n0 < p.N) (hd : p.tile.BM ∣ n0) (hz : z < points p.grid) {st : Step} (hst : st ∈ p.steps z)
    {q : Nat × Nat} (hq : q ∈ (p.slabB n0 st).reads) :
    (∀ x, q.1 ≤ x → x < q.1 + q.2 → p.problem.InB x) ∧ (Aligned p.tile.W p.problem → q.2 ≠ 1 → p.tile.W ∣ q.1) := by
  have hs := steps_ok (by have := hl.k; omega) st hst
  obtain ⟨s1, s2⟩ := slabB_ok hh.tile hl hs hn
  obtain ⟨r1, r2⟩ := Slab.reads_spec s1 s2 hq
  obtain ⟨t, ht, _, hb⟩ := steps_mem hr hp hst
  have hB := hh.b
  have hal : Aligned p.tile.W p.problem → p.tile.W ∣ st.b := by
    intro h
    rw [hb]
    exact Nat.dvd_add (offset_dvd (fun d hd => (h d (.inl hd)).2)) (offset_dvd (fun d hd => (h d (.inr hd)).2))
  unfold Launch.slabB mkSlab at r1 r2
  split at r1
  · rename_i hBt
    rw [if_pos hBt] at hB
    simp only [if_pos hBt] at r2
    refine ⟨?_, fun h => r2 (hal h) hB (dvd_trans hh.tile.d16 hs.dvd)⟩
    intro x h1 h2
    obtain ⟨r, c, h3, h4, _, _, rfl⟩ := r1 x h1 h2
    refine ⟨z, t, st.k0 + c, n0 + r, hz, ht, h4, h3, ?_⟩
    dsimp only
    rw [hb]
    unfold Problem.addrB
    rw [if_pos (show p.problem.Bt = true from hBt)]
    rfl
  · rename_i hBt
    rw [if_neg hBt] at hB
    simp only [if_neg hBt] at r2
    refine ⟨?_, fun h => r2 (hal h) hB (dvd_trans hh.tile.divBM hd)⟩
    intro x h1 h2
    obtain ⟨r, c, h3, h4, _, _, rfl⟩ := r1 x h1 h2
    refine ⟨z, t, st.k0 + r, n0 + c, hz, ht, h3, h4, ?_⟩
    dsimp only
    rw [hb]
    unfold Problem.addrB
    rw [if_neg (show ¬ p.problem.Bt = true from hBt)]
    rfl

omit hr hp in
/-- Vector stores are aligned. -/
theorem storesC {m0 n0 z : Nat} (hm : m0 < p.M) (hn : n0 < p.N) (hd : p.tile.BM ∣ n0) {x : Nat} (hx : x ∈ p.vecStores m0 n0 z) : p.tile.W ∣ x := by
  unfold Launch.vecStores at hx
  split at hx
  · rename_i hin
    simp only [List.mem_flatMap, List.mem_map, List.mem_filter, List.mem_range, decide_eq_true_eq] at hx
    obtain ⟨tid, h1, i, h2, j, ⟨h3, _⟩, rfl⟩ := hx
    have g1 := hl.m
    have g2 := hl.n
    have g3 := hl.cmn
    have g4 := hh.tile.le
    have hty : p.tile.ty tid < 8 := by unfold Tile.ty; rw [hh.tile.ntn]; omega
    have htx : p.tile.tx tid < 8 := by unfold Tile.tx; rw [hh.tile.ntn]; omega
    have hrow : p.tile.ty tid * p.tile.TM + i < p.tile.BM := by rw [hh.tile.bm]; exact mul_add_lt hty h2
    have hcol := hh.tile.col_lt htx h3
    unfold Launch.interior at hin
    rw [add32_eq (by omega), add32_eq (by omega)] at hin
    simp only [Bool.and_eq_true, decide_eq_true_eq] at hin
    unfold Tile.col at hcol
    have em : p.mG m0 tid i = m0 + (p.tile.ty tid * p.tile.TM + i) := by
      unfold Launch.mG
      rw [add32_eq (a := m0) (by omega), add32_eq (by omega)]
      omega
    have en : p.nG n0 tid j = n0 + j / p.tile.W * (p.tile.BM / p.tile.TM * p.tile.W) + p.tile.tx tid * p.tile.W := by
      unfold Launch.nG
      rw [add32_eq (a := n0) (by omega), add32_eq (by omega)]
    have h4 := mul_add_lt (show m0 + (p.tile.ty tid * p.tile.TM + i) < p.M by omega)
      (show n0 + j / p.tile.W * (p.tile.BM / p.tile.TM * p.tile.W) + p.tile.tx tid * p.tile.W < p.N by omega)
    rw [em, en, mul32_eq (by omega), add32_eq (by omega)]
    have hN := hh.n
    refine Nat.dvd_add (Dvd.dvd.mul_left hN _) (Nat.dvd_add (Dvd.dvd.mul_left hN _) (Nat.dvd_add (Nat.dvd_add ?_ ?_) ?_))
    · exact dvd_trans hh.tile.divBM hd
    · exact Dvd.dvd.mul_left (Dvd.intro_left _ rfl) _
    · exact Dvd.intro_left _ rfl
  · simp at hx

end
end Verif.CudaGemm
