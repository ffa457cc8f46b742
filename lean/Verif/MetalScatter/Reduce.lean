import Verif.MetalScatter.Lemmas

namespace Verif.MetalScatter
open Verif.CudaScatter hiding Group
variable {V : Type}

theorem reds_congr (g : CudaScatter.Group V) (n tsize : Nat) {a b : Nat → Bool} (q : Nat → Nat → V)
    (h : ∀ l < 32, g.active l = true → a l = b l) : g.reds n tsize a q = g.reds n tsize b q := by
  unfold CudaScatter.Group.reds
  congr 1
  apply List.filter_congr
  intro l hl
  cases ha : g.active l with
  | false => rfl
  | true => rw [h l (List.mem_range.1 hl) ha]

theorem coherent_cls {g : CudaScatter.Group V} {shift l : Nat} {p : Nat → Nat → Bool} (hp : PeerMask g shift p) (hl : l < 32) (ha : g.active l = true)
    (hc : coherent g p l = true) : (∀ j < 32, g.active j = true → g.index shift j = g.index shift l) ∧
    g.cls shift (g.index shift l) = (List.range 32).filter fun j => g.active j := by
  have hall : ∀ j < 32, g.active j = true → g.index shift j = g.index shift l := by
    intro j hj haj
    unfold coherent at hc
    have := List.all_eq_true.1 hc j (List.mem_range.2 hj)
    rw [peers_eq hp hl ha j hj, haj] at this
    unfold CudaScatter.Group.peers at this
    simpa [haj] using this
  refine ⟨hall, ?_⟩
  unfold CudaScatter.Group.cls
  apply List.filter_congr
  intro j hj
  cases haj : g.active j with
  | false => rfl
  | true => simp [hall j (List.mem_range.1 hj) haj]

/-- The operations of leaders; the values that are combined may be given in another order. -/
def chunks' (g : CudaScatter.Group V) (n shift : Nat) (ls : Nat → Nat → List V) (q : Nat → Nat → V) : List (Chunk V) :=
  (g.leaders shift).flatMap fun l => (List.range n).map fun i => (g.addr l + i * 2 ^ shift, ls l i, q l i)

theorem flatMap_perm_congr {α β : Type} {l : List α} {f f' : α → List β} (h : ∀ a ∈ l, (f a).Perm (f' a)) : (l.flatMap f).Perm (l.flatMap f') :=
  List.Perm.flatMap_left l h

theorem chunks'_perm {g : CudaScatter.Group V} {n shift : Nat} {ls : Nat → Nat → List V} {q : Nat → Nat → V} (h : g.InArray shift)
    (hls : ∀ l ∈ g.leaders shift, ∀ i, (ls l i).Perm ((g.cls shift (g.index shift l)).map fun j => g.val j i)) :
    ((chunks' g n shift ls q).flatMap fun c => c.2.1.map fun v => (c.1, v)).Perm (g.direct n (2 ^ shift)) := by
  refine List.Perm.trans ?_ (chunks_perm (q := q) h)
  unfold chunks' CudaScatter.Group.chunks
  rw [List.flatMap_assoc, List.flatMap_assoc]
  apply flatMap_perm_congr
  intro l hl
  rw [List.flatMap_map, List.flatMap_map]
  apply flatMap_perm_congr
  intro i _
  exact (hls l hl i).map _

theorem chunks'_ops (g : CudaScatter.Group V) (n shift : Nat) (ls : Nat → Nat → List V) (q : Nat → Nat → V) :
    (chunks' g n shift ls q).map (fun c => (c.1, c.2.2)) = g.reds n (2 ^ shift) (fun l => g.rank shift l == 0) q := by
  unfold chunks' CudaScatter.Group.reds CudaScatter.Group.leaders
  rw [List.map_flatMap]
  congr 1; funext l
  rw [List.map_map]; rfl

theorem chunks'_bracketed {g : CudaScatter.Group V} {op : V → V → V} {n shift : Nat} {ls : Nat → Nat → List V} {q : Nat → Nat → V}
    (h : ∀ l ∈ g.leaders shift, ∀ i, Bracketed op (ls l i) (q l i)) : ∀ c ∈ chunks' g n shift ls q, Bracketed op c.2.1 c.2.2 := by
  intro c hc
  unfold chunks' at hc
  obtain ⟨j, hj, hcj⟩ := List.mem_flatMap.1 hc
  obtain ⟨i, -, rfl⟩ := List.mem_map.1 hcj
  exact h j hj i

/-- What the atomic operations of a group combine -/
theorem block_chunks {g : CudaScatter.Group V} {op : V → V → V} {n shift : Nat} {ws : List (Nat × V)} (h : g.InArray shift)
    (hw : ReduceBlock g op n shift ws) : ∃ ch : List (Chunk V), ws = ch.map (fun c => (c.1, c.2.2)) ∧
      (∀ c ∈ ch, Bracketed op c.2.1 c.2.2) ∧ (ch.flatMap fun c => c.2.1.map fun v => (c.1, v)).Perm (g.direct n (2 ^ shift)) := by
  obtain ⟨p, hp, hw⟩ := hw
  have hlead : ∀ q, g.reds n (2 ^ shift) (leader p) q = g.reds n (2 ^ shift) (fun l => g.rank shift l == 0) q := fun q =>
    reds_congr g n _ q fun l hl ha => leader_iff hp hl ha
  by_cases hf : ((List.range 32).any fun l => g.active l && coherent g p l) = true
  · rw [if_pos hf] at hw
    obtain ⟨q, hq, rfl⟩ := hw
    obtain ⟨l, hl, hlf⟩ := List.any_eq_true.1 hf
    rw [List.mem_range] at hl
    rw [Bool.and_eq_true] at hlf
    obtain ⟨hall, hc⟩ := coherent_cls hp hl hlf.1 hlf.2
    have hchoose : ∀ x : Nat × Nat, ∃ ls : List Nat, ls.Perm ((List.range 32).filter fun j => g.active j) ∧
        Bracketed op (ls.map fun j => g.val j x.2) (q x.1 x.2) := by
      intro x
      obtain ⟨ls, h1, h2⟩ := hq x.1 x.2
      refine ⟨ls, h1, h2.resolve_left ?_⟩
      rintro rfl
      have := h1.symm.eq_nil
      have hm : l ∈ (List.range 32).filter fun j => g.active j := List.mem_filter.2 ⟨List.mem_range.2 hl, hlf.1⟩
      rw [this] at hm
      cases hm
    choose ls hls using hchoose
    refine ⟨chunks' g n shift (fun l i => (ls (l, i)).map fun j => g.val j i) q, ?_, ?_, ?_⟩
    · rw [chunks'_ops, hlead]
    · exact chunks'_bracketed fun l _ i => (hls (l, i)).2
    · apply chunks'_perm h
      intro j hj i
      have hm := mem_leaders.1 hj
      rw [hall j hm.1 hm.2.1, hc]
      exact (hls (j, i)).1.map _
  · rw [if_neg hf] at hw
    obtain ⟨s, hL, rfl⟩ := hw
    refine ⟨chunks' g n shift (fun l i => (g.cls shift (g.index shift l)).map fun j => g.val j i) s.w, ?_, ?_, ?_⟩
    · rw [chunks'_ops, hlead]
    · refine chunks'_bracketed fun l hl i => ?_
      obtain ⟨h1, h2, h3⟩ := mem_leaders.1 hl
      exact loop_spec hL 0 (minv_start op hp) l h1 h2 h3 i
    · exact chunks'_perm h fun _ _ _ => .refl _

theorem direct_chunks (g : CudaScatter.Group V) (op : V → V → V) (n shift : Nat) : ∃ ch : List (Chunk V),
    direct g n shift = ch.map (fun c => (c.1, c.2.2)) ∧ (∀ c ∈ ch, Bracketed op c.2.1 c.2.2) ∧
    (ch.flatMap fun c => c.2.1.map fun v => (c.1, v)).Perm (g.direct n (2 ^ shift)) := by
  refine ⟨(g.direct n (2 ^ shift)).map fun w => (w.1, [w.2], w.2), ?_, ?_, ?_⟩
  · rw [List.map_map]
    exact (List.map_id _).symm
  · intro c hc
    obtain ⟨w, -, rfl⟩ := List.mem_map.1 hc
    exact .one _
  · rw [List.flatMap_map]
    simp

theorem all_chunks {op : V → V → V} {n shift : Nat} {aggregate : Bool} : ∀ {gs : List (CudaScatter.Group V)} {ops : List (List (Nat × V))},
    List.Forall₂ (fun g w => if aggregate then ReduceBlock g op n shift w else w = direct g n shift) gs ops → (∀ g ∈ gs, g.InArray shift) →
    ∃ ch : List (Chunk V), ops.flatten = ch.map (fun c => (c.1, c.2.2)) ∧ (∀ c ∈ ch, Bracketed op c.2.1 c.2.2) ∧
      (ch.flatMap fun c => c.2.1.map fun v => (c.1, v)).Perm (gs.flatMap fun g => g.direct n (2 ^ shift)) := by
  intro gs ops h
  induction h with
  | nil => intro _; exact ⟨[], rfl, by simp, by simp⟩
  | @cons g w gs ws hw _ ih =>
    intro hA
    have hcase : ∃ ch : List (Chunk V), w = ch.map (fun c => (c.1, c.2.2)) ∧ (∀ c ∈ ch, Bracketed op c.2.1 c.2.2) ∧
        (ch.flatMap fun c => c.2.1.map fun v => (c.1, v)).Perm (g.direct n (2 ^ shift)) := by
      cases aggregate with
      | true => exact block_chunks (hA _ (by simp)) (by simpa using hw)
      | false =>
        have hw' : w = direct g n shift := by simpa using hw
        rw [hw']
        exact direct_chunks g op n shift
    obtain ⟨c1, e1, b1, p1⟩ := hcase
    obtain ⟨c2, e2, b2, p2⟩ := ih fun g hg => hA g (by simp [hg])
    refine ⟨c1 ++ c2, ?_, ?_, ?_⟩
    · rw [List.flatten_cons, List.map_append, e1, e2]
    · intro c hc
      rcases List.mem_append.1 hc with h | h
      · exact b1 c h
      · exact b2 c h
    · rw [List.flatMap_append, List.flatMap_cons]
      exact p1.append p2

end Verif.MetalScatter
