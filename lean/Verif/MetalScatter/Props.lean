import Verif.MetalScatter.Reduce
import Verif.CudaScatter.Props

/-!
# C92: scatter-reductions, increments and exchanges on Metal devices

The specification is that of CUDA devices: `Bracketed`, `contributions`, `Group.InArray`, `lanesAt` (`Verif.CudaScatter.Spec`).
-/
namespace Verif.MetalScatter
open Verif.CudaScatter hiding Group
open Verif.Ieee (decode)
variable {V : Type}

/-! ### Lanes with the same address -/

/-- The helper function returns, for each active lane, exactly the active lanes with the same address. -/
theorem C92_peers (g : CudaScatter.Group V) (shift : Nat) (hA : g.InArray shift) (p : Nat → Nat → Bool) (h : PeerMask g shift p) (l : Nat) (hl : l < 32)
    (ha : g.active l = true) (j : Nat) (hj : j < 32) : p l j = true ↔ g.active j = true ∧ g.addr j = g.addr l := by
  rw [peers_eq h hl ha j hj]
  unfold CudaScatter.Group.peers
  rw [Bool.and_eq_true, beq_iff_eq]
  constructor
  · rintro ⟨h1, h2⟩
    exact ⟨h1, addr_of_index hA hj hl h1 ha h2⟩
  · rintro ⟨h1, h2⟩
    refine ⟨h1, ?_⟩
    unfold CudaScatter.Group.index
    rw [h2]

/-- It returns. -/
theorem C92_peers_exists (g : CudaScatter.Group V) (shift : Nat) : ∃ p, PeerMask g shift p := peerMask_exists g shift

/-- Ten active lanes, two addresses that differ in bit 3: one iteration suffices. -/
example : exGroup.InArray 2 ∧ varying exGroup 2 1 = true ∧ varying exGroup 2 0 = false ∧
    (∃ p, PeerMask exGroup 2 p ∧ p 3 5 = true ∧ p 3 4 = false ∧ p 3 11 = false) := by
  refine ⟨exGroup_inArray, by decide, by decide, ?_⟩
  obtain ⟨p, hp⟩ := C92_peers_exists exGroup 2
  have h := fun j hj => C92_peers exGroup 2 exGroup_inArray p hp 3 (by decide) (by decide) j hj
  refine ⟨p, hp, (h 5 (by decide)).2 (by decide), ?_, ?_⟩
  · rw [Bool.eq_false_iff]; intro hc; exact absurd ((h 4 (by decide)).1 hc) (by decide)
  · rw [Bool.eq_false_iff]; intro hc; exact absurd ((h 11 (by decide)).1 hc) (by decide)

/-! ### Scatter-reductions -/

/-- All lanes of a group take the same branch. -/
theorem C92_uniform (g : CudaScatter.Group V) (shift : Nat) (p : Nat → Nat → Bool) (h : PeerMask g shift p) (l j : Nat) (hl : l < 32) (hj : j < 32)
    (ha : g.active l = true) (haj : g.active j = true) : coherent g p l = coherent g p j := by
  have key : ∀ l j, l < 32 → j < 32 → g.active l = true → g.active j = true → coherent g p l = true → coherent g p j = true := by
    intro l j hl hj ha haj hc
    obtain ⟨hall, -⟩ := coherent_cls h hl ha hc
    unfold coherent
    rw [List.all_eq_true]
    intro x hx
    rw [List.mem_range] at hx
    rw [peers_eq h hj haj x hx]
    unfold CudaScatter.Group.peers
    cases hax : g.active x with
    | false => rfl
    | true => simp [hall x hx hax, hall j hj haj]
  rw [Bool.eq_iff_iff]
  exact ⟨key l j hl hj ha haj, key j l hj hl haj ha⟩

/-- Exactly one lane per address executes the atomic operation. -/
theorem C92_leader (g : CudaScatter.Group V) (shift : Nat) (hA : g.InArray shift) (p : Nat → Nat → Bool) (h : PeerMask g shift p) (l : Nat) (hl : l < 32)
    (ha : g.active l = true) : ∃! j, j < 32 ∧ g.active j = true ∧ g.addr j = g.addr l ∧ leader p j = true := by
  obtain ⟨r, hr, e, hrk⟩ := exists_pos (shift := shift) hl ha
  have h0 : 0 < (g.cls shift (g.index shift l)).length := by omega
  have hm := mem_cls.1 (List.getElem_mem h0)
  refine ⟨(g.cls shift (g.index shift l))[0], ⟨hm.1, hm.2.1, addr_of_index hA hm.1 hl hm.2.1 ha hm.2.2, ?_⟩, ?_⟩
  · rw [leader_iff h hm.1 hm.2.1, rank_cls h0]; rfl
  · rintro j ⟨h1, h2, h3, h4⟩
    rw [leader_iff h h1 h2, beq_iff_eq] at h4
    have hi : g.index shift j = g.index shift l := by unfold CudaScatter.Group.index; rw [h3]
    exact leader_unique (mem_leaders.2 ⟨h1, h2, h4⟩) (mem_leaders.2 ⟨hm.1, hm.2.1, rank_cls h0⟩) (hi.trans hm.2.2.symm)

/-- For any operation (no associativity or commutativity, e.g. rounded addition), with and without aggregation: whatever the groups and the order of
atomic operations are, each element of memory is combined with operands `rs`, in some order, and each of these combines values that lanes provide
for this element.  Each value occurs exactly once; masked lanes contribute nothing. -/
theorem C92_reduce_any (op : V → V → V) (n shift : Nat) (aggregate : Bool) (gs : List (CudaScatter.Group V)) (hA : ∀ g ∈ gs, g.InArray shift)
    (m m' : Nat → V) (h : ReduceExec op n shift aggregate gs m m') (a : Nat) :
    ∃ (cs : List (List V × V)) (rs : List V), (∀ c ∈ cs, Bracketed op c.1 c.2) ∧
      (cs.flatMap fun c => c.1).Perm (contributions n (2 ^ shift) gs a) ∧ rs.Perm (cs.map fun c => c.2) ∧ m' a = rs.foldl op (m a) := by
  obtain ⟨ops, ws, hf, hp, rfl⟩ := h
  obtain ⟨ch, e, hb, hperm⟩ := all_chunks hf hA
  refine ⟨(ch.filter fun c => c.1 = a).map fun c => c.2, (ws.filter fun w => w.1 = a).map fun w => w.2, ?_, ?_, ?_, foldl_red op a ws m⟩
  · intro c hc
    obtain ⟨c', hc', rfl⟩ := List.mem_map.1 hc
    exact hb c' (List.mem_filter.1 hc').1
  · rw [← chunks_filter, contributions_eq]
    exact (hperm.filter _).map _
  · have h1 := (hp.filter fun w => decide (w.1 = a)).map fun w => w.2
    rw [e, List.filter_map, List.map_map] at h1
    rw [List.map_map]
    exact h1

/-- If the operation is associative and commutative, then each element is combined with exactly the values that active lanes provide for it. -/
theorem C92_reduce (op : V → V → V) (hA : ∀ a b c, op (op a b) c = op a (op b c)) (hC : ∀ a b, op a b = op b a) (n shift : Nat) (aggregate : Bool)
    (gs : List (CudaScatter.Group V)) (hIn : ∀ g ∈ gs, g.InArray shift) (m m' : Nat → V) (h : ReduceExec op n shift aggregate gs m m') (a : Nat) :
    m' a = (contributions n (2 ^ shift) gs a).foldl op (m a) := by
  obtain ⟨cs, rs, hb, hp, hr, e⟩ := C92_reduce_any op n shift aggregate gs hIn m m' h a
  have : RightCommutative op := ⟨fun x y z => by rw [hA, hA, hC y z]⟩
  rw [e, hr.foldl_eq, bracketed_folds hA cs hb, hp.foldl_eq]

theorem bracketed_exists (op : V → V → V) : ∀ l : List V, l ≠ [] → ∃ v, Bracketed op l v := by
  intro l
  induction l with
  | nil => intro h; exact absurd rfl h
  | cons x l ih =>
    intro _
    by_cases hl : l = []
    · subst hl; exact ⟨x, .one x⟩
    · obtain ⟨v, hv⟩ := ih hl
      exact ⟨op x v, Bracketed.join (.one x) hv⟩

/-- The loops end: there is an execution for any groups and any initial contents. -/
theorem C92_reduce_exists (op : V → V → V) (n shift : Nat) (aggregate : Bool) (gs : List (CudaScatter.Group V)) (m : Nat → V) :
    ∃ m', ReduceExec op n shift aggregate gs m m' := by
  have hblock : ∀ g : CudaScatter.Group V, ∃ w, ReduceBlock g op n shift w := by
    intro g
    obtain ⟨p, hp⟩ := C92_peers_exists g shift
    by_cases hf : ((List.range 32).any fun l => g.active l && coherent g p l) = true
    · have hq : ∀ x : Nat × Nat, ∃ v, ((List.range 32).filter fun j => g.active j) = [] ∨
          Bracketed op (((List.range 32).filter fun j => g.active j).map fun j => g.val j x.2) v := by
        intro x
        by_cases he : ((List.range 32).filter fun j => g.active j) = []
        · exact ⟨g.val x.1 x.2, .inl he⟩
        · obtain ⟨v, hv⟩ := bracketed_exists op (((List.range 32).filter fun j => g.active j).map fun j => g.val j x.2) (by simpa using he)
          exact ⟨v, .inr hv⟩
      choose q hq using hq
      exact ⟨_, p, hp, by rw [if_pos hf]; exact ⟨fun l i => q (l, i), fun l i => ⟨_, .refl _, hq (l, i)⟩, rfl⟩⟩
    · obtain ⟨s, hs⟩ := loop_exists (g := g) (op := op) (shift := shift) 5 0 (start g p) (by omega) (minv_start op hp)
      exact ⟨_, p, hp, by rw [if_neg hf]; exact ⟨s, hs, rfl⟩⟩
  have h : ∃ ops, List.Forall₂ (fun (g : CudaScatter.Group V) w => if aggregate then ReduceBlock g op n shift w else w = direct g n shift) gs ops := by
    induction gs with
    | nil => exact ⟨[], .nil⟩
    | cons g gs ih =>
      obtain ⟨ops, ho⟩ := ih
      cases aggregate with
      | true =>
        obtain ⟨w, hw⟩ := hblock g
        exact ⟨w :: ops, .cons (by simpa using hw) ho⟩
      | false => exact ⟨direct g n shift :: ops, .cons (by simp) ho⟩
  obtain ⟨ops, ho⟩ := h
  exact ⟨_, ops, ops.flatten, ho, .refl _, rfl⟩

/-- Two groups, of which one is coherent: the sum of all values for element 5 -/
example : ∃ m', ReduceExec (· + ·) 1 2 true [exGroup, exFull] (fun _ => 7) m' ∧ m' (64 + 20) = 7 + 200 + 4960 ∧ m' (64 + 28) = 7 + 250 := by
  obtain ⟨m', h⟩ := C92_reduce_exists (· + ·) 1 2 true [exGroup, exFull] (fun _ => 7)
  have hin : ∀ g ∈ [exGroup, exFull], g.InArray 2 := by
    intro g hg
    rcases List.mem_cons.1 hg with rfl | hg
    · exact exGroup_inArray
    · rw [List.mem_singleton] at hg; subst hg; exact exFull_inArray
  refine ⟨m', h, ?_, ?_⟩
  · rw [C92_reduce (· + ·) Nat.add_assoc Nat.add_comm 1 2 true _ hin _ _ h]; decide
  · rw [C92_reduce (· + ·) Nat.add_assoc Nat.add_comm 1 2 true _ hin _ _ h]; decide

/-! ### Increments -/

/-- Aggregated increments: whatever the groups and the order of atomic operations are, each counter is increased by the number of lanes that
use it, and these lanes obtain the numbers from the old value on, each of them once. -/
theorem C92_inc (gs : List (CudaScatter.Group Unit)) (hA : ∀ g ∈ gs, g.InArray 2) (m m' : Nat → BitVec 32) (out : Nat → Nat → BitVec 32)
    (h : IncExec gs m m' out) (a : Nat) :
    m' a = m a + BitVec.ofNat 32 (lanesAt gs a).length ∧
    ((lanesAt gs a).map fun p => out p.1 p.2).Perm ((List.range (lanesAt gs a).length).map fun r => m a + BitVec.ofNat 32 r) := by
  obtain ⟨p, ops, hp, hperm, hm, hout⟩ := h
  apply C89_inc gs hA m m' out
  have e : incOps gs p = CudaScatter.incOps gs := by
    unfold incOps CudaScatter.incOps
    apply List.flatMap_congr
    intro k _
    cases hk : gs[k]? with
    | none => rfl
    | some g =>
      simp only
      have e1 : (List.range 32).filter (fun l => g.active l && rankOf (p k) l == 0) = (List.range 32).filter (fun l => g.active l && g.rank 2 l == 0) := by
        apply List.filter_congr
        intro l hl
        cases ha : g.active l with
        | false => rfl
        | true => rw [rank_eq (hp k g hk) (List.mem_range.1 hl) ha]
      rw [e1]
      apply List.map_congr_left
      intro l hl
      rw [List.mem_filter, Bool.and_eq_true, List.mem_range] at hl
      rw [popc_congr (peers_eq (hp k g hk) hl.1 hl.2.1)]
  refine ⟨ops, by rw [← e]; exact hperm, hm, fun k g l hk hl ha => ?_⟩
  obtain ⟨j, hj, ho⟩ := hout k g l hk hl ha
  refine ⟨j, ?_, ?_⟩
  · rw [← lowest_congr (peers_eq (hp k g hk) hl ha)]; exact hj
  · rw [ho, rank_eq (hp k g hk) hl ha, BitVec.add_comm]

/-- There is an execution. -/
theorem C92_inc_exists (gs : List (CudaScatter.Group Unit)) (m : Nat → BitVec 32) : ∃ m' out, IncExec gs m m' out := by
  have hp : ∀ k : Nat, ∃ p : Nat → Nat → Bool, ∀ g : CudaScatter.Group Unit, gs[k]? = some g → PeerMask g 2 p := by
    intro k
    cases hk : gs[k]? with
    | none => exact ⟨fun _ _ => false, by simp⟩
    | some g =>
      obtain ⟨p, hp⟩ := C92_peers_exists g 2
      exact ⟨p, fun g' hg' => by cases hg'; exact hp⟩
  choose p hp using hp
  refine ⟨_, fun k l => (runInc m (incOps gs p)).2 k ((lowest (p k l)).getD 0) + BitVec.ofNat 32 (rankOf (p k) l),
    p, incOps gs p, fun k g hg => hp k g hg, .refl _, rfl, fun k g l hk hl ha => ?_⟩
  obtain ⟨r, hr, -, -⟩ := exists_pos (shift := 2) hl ha
  have e := lowest_peers (g := g) (shift := 2) (l := l) (by omega)
  rw [← lowest_congr (peers_eq (hp k g hk) hl ha)] at e
  refine ⟨_, e, ?_⟩
  simp only [e, Option.getD_some]

/-- The same holds without aggregation. -/
theorem C92_inc_direct (gs : List (CudaScatter.Group Unit)) (m m' : Nat → BitVec 32) (out : Nat → Nat → BitVec 32) (h : DirectInc gs m m' out) (a : Nat) :
    m' a = m a + BitVec.ofNat 32 (lanesAt gs a).length ∧
    ((lanesAt gs a).map fun p => out p.1 p.2).Perm ((List.range (lanesAt gs a).length).map fun r => m a + BitVec.ofNat 32 r) := by
  obtain ⟨ops, hperm, hm, hout⟩ := h
  have hkeys : (directOps gs).map opKey = (List.range gs.length).flatMap fun k => match gs[k]? with
      | none => []
      | some g => ((List.range 32).filter fun l => g.active l).map fun l => (k, l) := by
    unfold directOps
    rw [List.map_flatMap]
    apply List.flatMap_congr
    intro k _
    cases gs[k]? with
    | none => rfl
    | some g => simp only; rw [List.map_map]; rfl
  have hnodup : (ops.map opKey).Nodup := by
    rw [(hperm.map opKey).nodup_iff, hkeys, List.nodup_flatMap]
    refine ⟨fun k _ => ?_, ?_⟩
    · cases gs[k]? with
      | none => exact List.nodup_nil
      | some g => exact (List.nodup_range.filter _).map (fun x y h => (Prod.mk.inj h).2)
    · refine List.Pairwise.imp_of_mem (R := (· ≠ ·)) ?_ List.nodup_range
      intro k k' _ _ hk x hx hx'
      have key : ∀ k, x ∈ (match gs[k]? with
          | none => []
          | some g => ((List.range 32).filter fun l => g.active l).map fun l => (k, l)) → x.1 = k := by
        intro k hx
        cases hg : gs[k]? with
        | none => rw [hg] at hx; cases hx
        | some g =>
          rw [hg] at hx
          obtain ⟨l, -, rfl⟩ := List.mem_map.1 hx
          rfl
      exact hk ((key k hx).symm.trans (key k' hx'))
  have hfilt : ((directOps gs).filter fun o => o.2.2.1 = a) = (lanesAt gs a).map fun q => (q.1, q.2, a, 1) := by
    unfold directOps lanesAt
    rw [List.filter_flatMap, List.map_flatMap]
    apply List.flatMap_congr
    intro k _
    cases gs[k]? with
    | none => rfl
    | some g =>
      simp only
      rw [List.filter_map, List.filter_filter, List.map_map]
      have e : (List.range 32).filter (fun l => ((fun o : Nat × Nat × Nat × Nat => decide (o.2.2.1 = a)) ∘ fun l => (k, l, g.addr l, 1)) l && g.active l) =
          (List.range 32).filter fun l => g.active l && g.addr l == a := by
        apply List.filter_congr
        intro l _
        simp only [Function.comp]
        rw [Bool.and_comm]
        rfl
      rw [e]
      apply List.map_congr_left
      intro l hl
      rw [List.mem_filter, Bool.and_eq_true, beq_iff_eq] at hl
      simp only [Function.comp, hl.2.2]
  have hfp : (ops.filter fun o => o.2.2.1 = a).Perm ((lanesAt gs a).map fun q => (q.1, q.2, a, 1)) := by
    rw [← hfilt]; exact hperm.filter _
  have htot : total a ops = (lanesAt gs a).length := by
    unfold total
    rw [(hfp.map fun o => o.2.2.2).sum_eq, List.map_map]
    have : ((fun o : Nat × Nat × Nat × Nat => o.2.2.2) ∘ fun q : Nat × Nat => (q.1, q.2, a, 1)) = fun _ => 1 := rfl
    rw [this]
    simp
  have hprev := runInc_prev a ops m hnodup
  rw [htot] at hprev
  refine ⟨by rw [hm, runInc_mem, htot], ?_⟩
  rw [← hprev]
  have hb := hfp.flatMap_right (block (runInc m ops).2)
  refine List.Perm.trans ?_ hb.symm
  rw [List.flatMap_map]
  apply List.Perm.of_eq
  rw [← List.flatMap_singleton' ((lanesAt gs a).map _), List.flatMap_map]
  apply List.flatMap_congr
  intro q hq
  have hq' : ∃ g, gs[q.1]? = some g ∧ q.2 < 32 ∧ g.active q.2 = true := by
    unfold lanesAt at hq
    obtain ⟨k, -, hk⟩ := List.mem_flatMap.1 hq
    cases hg : gs[k]? with
    | none => rw [hg] at hk; cases hk
    | some g =>
      rw [hg] at hk
      obtain ⟨l, hl, rfl⟩ := List.mem_map.1 hk
      rw [List.mem_filter, Bool.and_eq_true, List.mem_range] at hl
      exact ⟨g, hg, hl.1, hl.2.1⟩
  obtain ⟨g, hg, h1, h2⟩ := hq'
  rw [hout q.1 g q.2 hg h1 h2]
  unfold block
  simp

example (m : Nat → BitVec 32) : ∃ m' out, DirectInc [exInc, exInc] m m' out :=
  ⟨_, fun k l => (runInc m (directOps [exInc, exInc])).2 k l, _, .refl _, rfl, fun _ _ _ _ _ _ => rfl⟩

/-! ### Minima and maxima of floating point numbers -/

/-- The integer atomics are those of CUDA devices. -/
theorem fetchMinMax_eq (isMin : Bool) (mem v : BitVec 32) : fetchMinMax isMin mem v = minmax isMin mem v := by
  unfold fetchMinMax minmax
  have hm : (v.msb = false) ↔ 0 ≤ v.toInt := by
    rw [Bool.eq_false_iff, ne_eq, BitVec.msb_eq_toInt, decide_eq_true_eq]; omega
  by_cases h : 0 ≤ v.toInt
  · rw [if_pos h, if_pos (hm.2 h)]
    cases isMin <;> simp [BitVec.slt]
  · rw [if_neg h, if_neg (fun hc => h (hm.1 hc))]
    cases isMin <;> simp [BitVec.ult]

/-- The result of the atomic operation is one of both operands, and none of them is less (minima) or greater (maxima). -/
theorem C92_minmax (mem v : BitVec 32) :
    ((fetchMinMax true mem v = mem ∨ fetchMinMax true mem v = v) ∧
      ¬ (decode 8 23 mem.toNat).lt (decode 8 23 (fetchMinMax true mem v).toNat) ∧
      ¬ (decode 8 23 v.toNat).lt (decode 8 23 (fetchMinMax true mem v).toNat)) ∧
    ((fetchMinMax false mem v = mem ∨ fetchMinMax false mem v = v) ∧
      ¬ (decode 8 23 (fetchMinMax false mem v).toNat).lt (decode 8 23 mem.toNat) ∧
      ¬ (decode 8 23 (fetchMinMax false mem v).toNat).lt (decode 8 23 v.toNat)) := by
  rw [fetchMinMax_eq, fetchMinMax_eq]
  exact ⟨C89_min 8 23 (by decide) mem v, C89_max 8 23 (by decide) mem v⟩

/-- They are associative and commutative, so that `C92_reduce` applies. -/
theorem C92_minmax_laws (isMin : Bool) (a b c : BitVec 32) :
    fetchMinMax isMin (fetchMinMax isMin a b) c = fetchMinMax isMin a (fetchMinMax isMin b c) ∧ fetchMinMax isMin a b = fetchMinMax isMin b a := by
  simp only [fetchMinMax_eq]
  exact C89_minmax_laws 8 23 isMin a b c

example : fetchMinMax true 0x3f800000#32 0xc0000000#32 = 0xc0000000#32 ∧ fetchMinMax false 0x3f800000#32 0xc0000000#32 = 0x3f800000#32 := by decide

/-! ### Exchange and compare-exchange -/

/-- Exchange: an active lane stores its value and obtains the previous one; others change nothing and obtain zero. -/
theorem C92_exch (m : Nat → BitVec 32) (a : Nat) (v : BitVec 32) :
    (exch m a true v).2 = m a ∧ (∀ b, (exch m a true v).1 b = if b = a then v else m b) ∧ exch m a false v = (m, 0) := by
  refine ⟨rfl, fun b => ?_, rfl⟩
  unfold exch
  rw [if_pos rfl]
  by_cases h : b = a
  · subst h; simp
  · simp [h]

/-- Compare-exchange: active lanes obtain the previous value; success is reported exactly if the new value was stored, and then the previous one is
equal to `compare`; masked lanes change nothing, obtain zero and report no success.  Missing: success whenever the values are equal. -/
theorem C92_cas_partial (m : Nat → BitVec 32) (a : Nat) (mask : Bool) (compare v : BitVec 32) (spurious : Bool) :
    (cas m a mask compare v spurious).2.1 = (if mask then m a else 0) ∧
    (∀ b, (cas m a mask compare v spurious).1 b = if b = a ∧ (cas m a mask compare v spurious).2.2 = true then v else m b) ∧
    ((cas m a mask compare v spurious).2.2 = true → mask = true ∧ m a = compare) ∧
    (spurious = false → mask = true → m a = compare → (cas m a mask compare v spurious).2.2 = true) := by
  unfold cas
  cases mask with
  | false => simp
  | true =>
    simp only [if_true]
    by_cases h : m a = compare ∧ spurious = false
    · rw [if_pos h]
      refine ⟨h.1.symm, fun b => ?_, fun _ => ⟨trivial, h.1⟩, fun _ _ _ => rfl⟩
      by_cases hb : b = a
      · subst hb; simp
      · simp [hb]
    · rw [if_neg h]
      refine ⟨rfl, fun b => by simp, by simp, fun h1 _ h2 => absurd ⟨h2, h1⟩ h⟩

example : (cas (fun _ => 5#32) 64 true 5#32 7#32 false).2.2 = true ∧ (cas (fun _ => 5#32) 64 true 6#32 7#32 false).2.2 = false := by decide

/-- A weak compare-exchange may fail although memory contains the value it is compared with: nothing is stored, and there is no second attempt. -/
theorem C92_cas_weak_counterexample : (cas (fun _ => 5#32) 64 true 5#32 7#32 true).2 = (5#32, false) ∧
    (cas (fun _ => 5#32) 64 true 5#32 7#32 true).1 = fun _ => 5#32 := ⟨by decide, rfl⟩

end Verif.MetalScatter
