import Verif.Cuda.Scan
import Verif.Cuda.LookProps

/-!
# Which thread processes which element
-/
namespace Verif.Cuda

/-- Position of a thread within its block, in the order of the scan: chunk `n`, thread `t` -/
def Launch.rank (L : Launch) (n t : Nat) : Nat := n % L.cpb * L.cs + t % L.cs

/-- Position in the order of the scan of an element -/
def Launch.rk (L : Launch) (e : Nat) : Nat := if L.rev then L.bs - 1 - e % L.bs else e % L.bs

/-- Facts about a launch; `cp` is the number of chunks per thread block. -/
structure Geo0 (L : Launch) (cp : Nat) : Prop where
  bs1 : 1 ≤ L.bs
  cp1 : 1 ≤ cp
  cpb1 : 1 ≤ L.cpb
  pow : ∃ k, 1 ≤ k ∧ k ≤ 10 ∧ L.cs = 2 ^ k
  threads : L.threads = cp * L.cs
  small : L.threads ≤ 2 ^ 31
  bs_le : L.bs ≤ L.cpb * L.cs
  cover : ∀ j, j < L.size → j / L.bs * L.cpb + L.cpb ≤ L.gx * L.gy * cp
  pos : ∀ t, t < L.threads → L.pos t = t % L.cs
  valid : ∀ c t, c < L.gx * L.gy → t < L.threads → (L.valid (L.at c).1 (L.at c).2 t = true ↔
    L.rank (c * cp + t / L.cs) t < L.bs ∧
      (c * cp + t / L.cs) / L.cpb * L.bs + (if L.rev then L.bs - 1 - L.rank (c * cp + t / L.cs) t else L.rank (c * cp + t / L.cs) t) < L.size)
  posIn : ∀ c t, c < L.gx * L.gy → t < L.threads → L.valid (L.at c).1 (L.at c).2 t = true →
    L.posInInput (L.at c).1 (L.at c).2 t =
      (c * cp + t / L.cs) / L.cpb * L.bs + (if L.rev then L.bs - 1 - L.rank (c * cp + t / L.cs) t else L.rank (c * cp + t / L.cs) t)

/-- Launches of prefix reductions -/
structure Geo (L : Launch) (cp : Nat) : Prop extends Geo0 L cp where
  kind : if L.large && L.scratch then cp = 1 ∧ L.threads = 1024 else L.cpb = 1

/-- Elements of a thread -/
def Launch.elem (L : Launch) (c t : Nat) : Finset Nat :=
  if c < L.gx * L.gy ∧ t < L.threads ∧ L.valid (L.at c).1 (L.at c).2 t = true then {L.posInInput (L.at c).1 (L.at c).2 t} else ∅

theorem mem_elem {L : Launch} {c t j : Nat} : j ∈ L.elem c t ↔ c < L.gx * L.gy ∧ t < L.threads ∧ L.valid (L.at c).1 (L.at c).2 t = true ∧ j = L.posInInput (L.at c).1 (L.at c).2 t := by
  unfold Launch.elem
  split
  · rename_i h
    rw [Finset.mem_singleton]; tauto
  · rename_i h
    simp only [Finset.notMem_empty, false_iff]; tauto

variable {L : Launch} {cp : Nat}

theorem Geo0.cs0 (g : Geo0 L cp) : 2 ≤ L.cs := by
  obtain ⟨k, h1, _, h2⟩ := g.pow
  rw [h2]
  calc 2 = 2 ^ 1 := rfl
    _ ≤ 2 ^ k := Nat.pow_le_pow_right (by omega) h1

/-- The element that a thread processes determines its block and its position. -/
theorem Geo0.elem_iff (g : Geo0 L cp) {c t j : Nat} (hc : c < L.gx * L.gy) (ht : t < L.threads) :
    j ∈ L.elem c t ↔ j < L.size ∧ j / L.bs = (c * cp + t / L.cs) / L.cpb ∧ L.rk j = L.rank (c * cp + t / L.cs) t := by
  have hb := g.bs1
  rw [mem_elem]
  generalize hn : c * cp + t / L.cs = n
  have hv := g.valid c t hc ht
  have hp := g.posIn c t hc ht
  rw [hn] at hv hp
  generalize L.rank n t = q at *
  generalize hB : n / L.cpb = B at *
  unfold Launch.rk
  have hjm := Nat.mod_lt j (show 0 < L.bs by omega)
  have hdm := Nat.div_add_mod j L.bs
  constructor
  · rintro ⟨_, _, h, rfl⟩
    rw [hp h]
    obtain ⟨v1, v2⟩ := hv.1 h
    refine ⟨v2, ?_⟩
    have hlt : (if L.rev = true then L.bs - 1 - q else q) < L.bs := by split <;> omega
    rw [Nat.mul_comm, Nat.mul_add_div (by omega), Nat.div_eq_of_lt hlt, Nat.mul_add_mod, Nat.mod_eq_of_lt hlt]
    refine ⟨by omega, ?_⟩
    split <;> omega
  · rintro ⟨h1, h2, h3⟩
    have hq : q < L.bs := by rw [← h3]; split <;> omega
    have hj : j = B * L.bs + (if L.rev = true then L.bs - 1 - q else q) := by
      rw [← h2, ← h3, Nat.mul_comm]
      split <;> omega
    have : L.valid (L.at c).1 (L.at c).2 t = true := hv.2 ⟨hq, by rw [← hj]; exact h1⟩
    exact ⟨hc, ht, this, by rw [hp this]; exact hj⟩

/-- Chunk and position within the chunk determine the thread. -/
theorem Geo0.thread_inj (g : Geo0 L cp) {c t c' t' : Nat} (ht : t < L.threads) (ht' : t' < L.threads) (h1 : c * cp + t / L.cs = c' * cp + t' / L.cs) (h2 : t % L.cs = t' % L.cs) : c = c' ∧ t = t' := by
  have hcs := g.cs0
  have hcp := g.cp1
  rw [g.threads] at ht ht'
  have e1 : t / L.cs < cp := Nat.div_lt_of_lt_mul (by rwa [Nat.mul_comm])
  have e2 : t' / L.cs < cp := Nat.div_lt_of_lt_mul (by rwa [Nat.mul_comm])
  have e3 : c = c' := by
    have := congrArg (· / cp) h1
    rwa [Nat.mul_comm, Nat.mul_add_div (by omega), Nat.div_eq_of_lt e1, Nat.mul_comm, Nat.mul_add_div (by omega), Nat.div_eq_of_lt e2, Nat.add_zero, Nat.add_zero] at this
  subst e3
  refine ⟨rfl, ?_⟩
  have d1 := Nat.div_add_mod t L.cs
  have d2 := Nat.div_add_mod t' L.cs
  have : t / L.cs = t' / L.cs := by omega
  rw [← d1, ← d2, this, h2]

/-- Block and position within the block determine chunk and position within the chunk. -/
theorem Geo0.rank_inj (g : Geo0 L cp) {n t n' t' : Nat} (h1 : n / L.cpb = n' / L.cpb) (h2 : L.rank n t = L.rank n' t') : n = n' ∧ t % L.cs = t' % L.cs := by
  have hcs := g.cs0
  unfold Launch.rank at h2
  have m1 := Nat.mod_lt t (show 0 < L.cs by omega)
  have m2 := Nat.mod_lt t' (show 0 < L.cs by omega)
  have a := congrArg (· / L.cs) h2
  have b := congrArg (· % L.cs) h2
  rw [Nat.mul_comm, Nat.mul_add_div (by omega), Nat.div_eq_of_lt m1, Nat.mul_comm (n' % L.cpb), Nat.mul_add_div (by omega), Nat.div_eq_of_lt m2] at a
  rw [Nat.mul_comm, Nat.mul_add_mod, Nat.mod_eq_of_lt m1, Nat.mul_comm (n' % L.cpb), Nat.mul_add_mod, Nat.mod_eq_of_lt m2] at b
  refine ⟨?_, b⟩
  have d1 := Nat.div_add_mod n L.cpb
  have d2 := Nat.div_add_mod n' L.cpb
  rw [← d1, ← d2, h1]
  omega

theorem Geo0.elem_inj (g : Geo0 L cp) {c t c' t' j : Nat} (h : j ∈ L.elem c t) (h' : j ∈ L.elem c' t') : c = c' ∧ t = t' := by
  obtain ⟨hc, ht, _⟩ := mem_elem.1 h
  obtain ⟨hc', ht', _⟩ := mem_elem.1 h'
  obtain ⟨_, a1, a2⟩ := (g.elem_iff hc ht).1 h
  obtain ⟨_, b1, b2⟩ := (g.elem_iff hc' ht').1 h'
  obtain ⟨i1, i2⟩ := g.rank_inj (a1.symm.trans b1) (a2.symm.trans b2)
  exact g.thread_inj ht ht' i1 i2

theorem Geo0.apart (g : Geo0 L cp) (c : Nat) : Apart (L.elem c) := by
  intro i j hij
  rw [Finset.disjoint_left]
  intro e h1 h2
  exact hij (g.elem_inj h1 h2).2

/-- Elements of a thread block -/
def Launch.elems (L : Launch) (c : Nat) : Finset Nat := (Finset.range L.threads).biUnion (L.elem c)

theorem Geo0.aparts (g : Geo0 L cp) : Apart L.elems := by
  intro i j hij
  unfold Launch.elems
  rw [Finset.disjoint_biUnion_left]
  intro a _
  rw [Finset.disjoint_biUnion_right]
  intro b _
  rw [Finset.disjoint_left]
  intro e h1 h2
  exact hij (g.elem_inj h1 h2).1

/-- Every element is processed. -/
theorem Geo0.surj (g : Geo0 L cp) {j : Nat} (hj : j < L.size) : ∃ c t, j ∈ L.elem c t ∧ c * cp + t / L.cs = j / L.bs * L.cpb + L.rk j / L.cs ∧ t % L.cs = L.rk j % L.cs := by
  have hb := g.bs1
  have hcs := g.cs0
  have hcp := g.cp1
  have hcpb := g.cpb1
  have hcov := g.cover j hj
  have hrk : L.rk j < L.bs := by
    unfold Launch.rk
    have := Nat.mod_lt j (show 0 < L.bs by omega)
    split <;> omega
  have hle := g.bs_le
  have hq : L.rk j / L.cs < L.cpb := Nat.div_lt_of_lt_mul (by rw [Nat.mul_comm]; omega)
  generalize hn : j / L.bs * L.cpb + L.rk j / L.cs = n at *
  have hm := Nat.mod_lt n (show 0 < cp by omega)
  have hr := Nat.mod_lt (L.rk j) (show 0 < L.cs by omega)
  have hdn := Nat.div_add_mod n cp
  have hnlt : n < L.gx * L.gy * cp := by omega
  have hc : n / cp < L.gx * L.gy := Nat.div_lt_of_lt_mul (by rwa [Nat.mul_comm])
  have ht : n % cp * L.cs + L.rk j % L.cs < L.threads := by
    rw [g.threads]
    calc n % cp * L.cs + L.rk j % L.cs < n % cp * L.cs + L.cs := by omega
      _ = (n % cp + 1) * L.cs := by rw [Nat.add_mul, Nat.one_mul]
      _ ≤ cp * L.cs := Nat.mul_le_mul_right _ (by omega)
  have e1 : (n % cp * L.cs + L.rk j % L.cs) / L.cs = n % cp := by
    rw [Nat.mul_comm, Nat.mul_add_div (by omega), Nat.div_eq_of_lt hr, Nat.add_zero]
  have e2 : (n % cp * L.cs + L.rk j % L.cs) % L.cs = L.rk j % L.cs := by
    rw [Nat.mul_comm, Nat.mul_add_mod, Nat.mod_eq_of_lt hr]
  have e3 : n / cp * cp + n % cp = n := by rw [Nat.mul_comm]; exact hdn
  refine ⟨n / cp, n % cp * L.cs + L.rk j % L.cs, ?_, by rw [e1, e3], e2⟩
  rw [g.elem_iff hc ht, e1, e3]
  have e4 : n / L.cpb = j / L.bs := by rw [← hn, Nat.mul_comm, Nat.mul_add_div (by omega), Nat.div_eq_of_lt hq, Nat.add_zero]
  have e5 : n % L.cpb = L.rk j / L.cs := by rw [← hn, Nat.mul_comm, Nat.mul_add_mod, Nat.mod_eq_of_lt hq]
  refine ⟨hj, e4.symm, ?_⟩
  unfold Launch.rank
  rw [e2, e5, Nat.mul_comm]
  exact (Nat.div_add_mod _ _).symm

/-- The elements of thread block `c` in the window of thread `t`, and those of preceding thread blocks of the row -/
def Launch.upto (L : Launch) (c t : Nat) : Finset Nat := (Finset.Icc (t - t % L.cs) t).biUnion (L.elem c) ∪ (Finset.Ico (c - c % L.cpb) c).biUnion L.elems

theorem Geo0.upto_disj (g : Geo0 L cp) (c : Nat) (S : Finset Nat) : Disjoint (S.biUnion (L.elem c)) ((Finset.Ico (c - c % L.cpb) c).biUnion L.elems) := by
  rw [Finset.disjoint_left]
  intro e h1 h2
  obtain ⟨a, _, h1⟩ := Finset.mem_biUnion.1 h1
  obtain ⟨b, hb, h2⟩ := Finset.mem_biUnion.1 h2
  obtain ⟨d, _, h2⟩ := Finset.mem_biUnion.1 h2
  have := (g.elem_inj h1 h2).1
  have := Finset.mem_Ico.1 hb
  omega

theorem Geo.order_aux (g : Geo L cp) {c t c' t' : Nat} (ht : t < L.threads) (ht' : t' < L.threads) :
    ((c' * cp + t' / L.cs) / L.cpb = (c * cp + t / L.cs) / L.cpb ∧ L.rank (c' * cp + t' / L.cs) t' ≤ L.rank (c * cp + t / L.cs) t) ↔
      (c' = c ∧ t - t % L.cs ≤ t' ∧ t' ≤ t) ∨ (c - c % L.cpb ≤ c' ∧ c' < c) := by
  have hcs := g.cs0
  have hcp := g.cp1
  have hcpb := g.cpb1
  have hkind := g.kind
  have hm := Nat.mod_lt t (show 0 < L.cs by omega)
  have hm' := Nat.mod_lt t' (show 0 < L.cs by omega)
  have hd := Nat.div_add_mod t L.cs
  have hd' := Nat.div_add_mod t' L.cs
  have hth := g.threads
  split at hkind
  · obtain ⟨rfl, h1024⟩ := hkind
    rw [Nat.one_mul] at hth
    have htt : t / L.cs = 0 := Nat.div_eq_of_lt (by omega)
    have htt' : t' / L.cs = 0 := Nat.div_eq_of_lt (by omega)
    have htm : t % L.cs = t := Nat.mod_eq_of_lt (by omega)
    have htm' : t' % L.cs = t' := Nat.mod_eq_of_lt (by omega)
    unfold Launch.rank
    rw [htt, htt', htm, htm', Nat.mul_one, Nat.mul_one, Nat.add_zero, Nat.add_zero]
    have n1 := Nat.div_add_mod c L.cpb
    have n2 := Nat.div_add_mod c' L.cpb
    have l1 := Nat.mod_lt c (show 0 < L.cpb by omega)
    have l2 := Nat.mod_lt c' (show 0 < L.cpb by omega)
    constructor
    · rintro ⟨h1, h2⟩
      rw [h1] at n2
      by_cases hlt : c' % L.cpb < c % L.cpb
      · right; omega
      · by_cases heq : c' % L.cpb = c % L.cpb
        · left; rw [heq] at h2; omega
        · exfalso
          have : (c % L.cpb + 1) * L.cs ≤ c' % L.cpb * L.cs := Nat.mul_le_mul_right _ (by omega)
          rw [Nat.add_mul, Nat.one_mul] at this
          omega
    · rintro (⟨rfl, h1, h2⟩ | ⟨h1, h2⟩)
      · exact ⟨rfl, by omega⟩
      · have hdiv : c' / L.cpb = c / L.cpb := by
          apply Nat.le_antisymm
          · exact Nat.div_le_div_right (by omega)
          · rw [Nat.le_div_iff_mul_le (by omega), Nat.mul_comm]; omega
        refine ⟨hdiv, ?_⟩
        rw [hdiv] at n2
        have : (c' % L.cpb + 1) * L.cs ≤ c % L.cpb * L.cs := Nat.mul_le_mul_right _ (by omega)
        rw [Nat.add_mul, Nat.one_mul] at this
        omega
  · unfold Launch.rank
    rw [hkind, Nat.mod_one, Nat.mod_one, Nat.mod_one, Nat.div_one, Nat.div_one, Nat.zero_mul, Nat.zero_add, Nat.zero_add, Nat.sub_zero]
    constructor
    · rintro ⟨h1, h2⟩
      left
      have hlt : t / L.cs < cp := Nat.div_lt_of_lt_mul (by rw [Nat.mul_comm]; omega)
      have hlt' : t' / L.cs < cp := Nat.div_lt_of_lt_mul (by rw [Nat.mul_comm]; omega)
      have hcc : c' = c := by
        have := congrArg (· / cp) h1
        rwa [Nat.mul_comm, Nat.mul_add_div (by omega), Nat.div_eq_of_lt hlt', Nat.mul_comm, Nat.mul_add_div (by omega), Nat.div_eq_of_lt hlt, Nat.add_zero, Nat.add_zero] at this
      subst hcc
      have : t' / L.cs = t / L.cs := by omega
      rw [this] at hd'
      omega
    · rintro (⟨rfl, h1, h2⟩ | ⟨h1, h2⟩)
      · have : t' / L.cs = t / L.cs := by
          apply Nat.le_antisymm
          · exact Nat.div_le_div_right h2
          · rw [Nat.le_div_iff_mul_le (by omega), Nat.mul_comm]; omega
        rw [this] at hd'
        exact ⟨by rw [this], by omega⟩
      · omega

/-- The elements that precede an element in the order of the scan -/
theorem Geo.mem_upto (g : Geo L cp) {c t e j : Nat} (he : e ∈ L.elem c t) : j ∈ L.upto c t ↔ j < L.size ∧ j / L.bs = e / L.bs ∧ L.rk j ≤ L.rk e := by
  obtain ⟨hc, ht, _⟩ := mem_elem.1 he
  obtain ⟨_, e1, e2⟩ := (g.elem_iff hc ht).1 he
  have key : ∀ c' t', j ∈ L.elem c' t' → ((j / L.bs = e / L.bs ∧ L.rk j ≤ L.rk e) ↔ (c' = c ∧ t - t % L.cs ≤ t' ∧ t' ≤ t) ∨ (c - c % L.cpb ≤ c' ∧ c' < c)) := by
    intro c' t' hj
    obtain ⟨hc', ht', _⟩ := mem_elem.1 hj
    obtain ⟨_, j1, j2⟩ := (g.elem_iff hc' ht').1 hj
    rw [e1, e2, j1, j2]
    exact g.order_aux ht ht'
  unfold Launch.upto Launch.elems
  simp only [Finset.mem_union, Finset.mem_biUnion, Finset.mem_Icc, Finset.mem_Ico, Finset.mem_range]
  constructor
  · rintro (⟨t', ⟨h1, h2⟩, h3⟩ | ⟨c', ⟨h1, h2⟩, t', _, h3⟩)
    · obtain ⟨hc', ht', _⟩ := mem_elem.1 h3
      exact ⟨((g.elem_iff hc' ht').1 h3).1, (key c t' h3).2 (Or.inl ⟨rfl, h1, h2⟩)⟩
    · obtain ⟨hc', ht', _⟩ := mem_elem.1 h3
      exact ⟨((g.elem_iff hc' ht').1 h3).1, (key c' t' h3).2 (Or.inr ⟨h1, h2⟩)⟩
  · rintro ⟨h0, h⟩
    obtain ⟨c', t', hj, _⟩ := g.surj h0
    obtain ⟨hc', ht', _⟩ := mem_elem.1 hj
    rcases (key c' t' hj).1 h with ⟨rfl, h1, h2⟩ | ⟨h1, h2⟩
    · exact Or.inl ⟨t', ⟨h1, h2⟩, hj⟩
    · exact Or.inr ⟨c', ⟨h1, h2⟩, t', ht', hj⟩

end Verif.Cuda
