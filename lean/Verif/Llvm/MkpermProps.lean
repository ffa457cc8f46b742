import Verif.Llvm.MkpermLemmas

/-!
# C26: `jit_block_mkperm` computes a stable counting sort
-/
namespace Verif.Llvm

open Verif.Par

/-! ### Geometry -/

/-- Sizes for which nothing wraps around, and the tasks of the last group start within the array -/
structure MkOk (workers ideal size bs : Nat) : Prop where
  spos : 0 < size
  bpos : 0 < bs
  ipos : 16 ≤ ideal
  sum : size + max ideal bs < 2 ^ 32
  bsum : bs + max ideal bs ≤ 2 ^ 32
  cores : bs + 4 * workers ≤ 2 ^ 32
  fit : ((mkSplit workers ideal bs).1 - 1) * (mkSplit workers ideal bs).2 ≤ size - (cdiv size bs - 1) * bs

section
variable {workers ideal size bs : Nat}

theorem mkSplit_facts (hb : 0 < bs) (hi : 16 ≤ ideal) (hbs : bs + max ideal bs ≤ 2 ^ 32) (hc : bs + 4 * workers ≤ 2 ^ 32) :
    0 < (mkSplit workers ideal bs).1 ∧ 0 < (mkSplit workers ideal bs).2 ∧ (mkSplit workers ideal bs).2 ≤ max ideal bs ∧
    bs ≤ (mkSplit workers ideal bs).1 * (mkSplit workers ideal bs).2 ∧
    ((mkSplit workers ideal bs).1 - 1) * (mkSplit workers ideal bs).2 < bs ∧ (mkSplit workers ideal bs).1 ≤ bs := by
  unfold mkSplit
  split
  · rename_i hw
    simp only
    rw [mul32_eq (by omega), ceilDiv32_eq (a := bs) (b := workers * 4) (by omega) (by omega)]
    have h1 : cdiv bs (workers * 4) ≤ bs := cdiv_le_self (by omega)
    have h2 : max ideal (cdiv bs (workers * 4)) ≤ max ideal bs := by omega
    have h3 : 16 ≤ max ideal (cdiv bs (workers * 4)) := by omega
    generalize max ideal (cdiv bs (workers * 4)) = ts at *
    rw [ceilDiv32_eq (by omega) (by omega)]
    have h4 := cdiv_pos (a := bs) (b := ts) hb (by omega)
    refine ⟨h4, by omega, h2, cdiv_mul_ge (by omega), (lt_cdiv (by omega)).1 (by omega), cdiv_le_self (by omega)⟩
  · simp only
    omega

/-- Everything about the ranges of the tasks -/
theorem mkRange_facts (h : MkOk workers ideal size bs) {t : Nat}
    (ht : t < cdiv size bs * (mkSplit workers ideal bs).1) :
    t / (mkSplit workers ideal bs).1 < cdiv size bs ∧ t / (mkSplit workers ideal bs).1 * bs < size ∧ t % (mkSplit workers ideal bs).1 < (mkSplit workers ideal bs).1 ∧
    (mkRange (mkSplit workers ideal bs).1 (mkSplit workers ideal bs).2 bs size t).1 = t / (mkSplit workers ideal bs).1 * bs + t % (mkSplit workers ideal bs).1 * (mkSplit workers ideal bs).2 ∧
    (mkRange (mkSplit workers ideal bs).1 (mkSplit workers ideal bs).2 bs size t).2 = min (t / (mkSplit workers ideal bs).1 * bs + t % (mkSplit workers ideal bs).1 * (mkSplit workers ideal bs).2 + (mkSplit workers ideal bs).2) (min (t / (mkSplit workers ideal bs).1 * bs + bs) size) ∧
    t / (mkSplit workers ideal bs).1 * bs + t % (mkSplit workers ideal bs).1 * (mkSplit workers ideal bs).2 ≤ min (t / (mkSplit workers ideal bs).1 * bs + bs) size := by
  obtain ⟨h1, h2, h3, h4, h5, h6⟩ := mkSplit_facts (workers := workers) h.bpos h.ipos h.bsum h.cores
  have hfit := h.fit
  have hsum := h.sum
  have hbp := h.bpos
  generalize mkSplit workers ideal bs = p at *
  have hg : t / p.1 < cdiv size bs := by rw [Nat.div_lt_iff_lt_mul h1]; exact ht
  have hj : t % p.1 < p.1 := Nat.mod_lt _ h1
  unfold mkRange
  simp only
  generalize t / p.1 = g at *
  generalize t % p.1 = j at *
  have hgs : g * bs < size := (lt_cdiv hbp).1 hg
  have hjt : j * p.2 ≤ (p.1 - 1) * p.2 := Nat.mul_le_mul_right _ (by omega)
  have hstart : g * bs + j * p.2 ≤ min (g * bs + bs) size := by
    by_cases e : g = cdiv size bs - 1
    · rw [← e] at hfit; omega
    · have h7 : (g + 1) * bs < size := (lt_cdiv hbp).1 (by omega)
      rw [Nat.add_mul] at h7
      omega
  refine ⟨hg, hgs, hj, ?_, ?_, hstart⟩
  · rw [mul32_eq (by omega), mul32_eq (by omega), add32_eq (by omega)]
  · rw [mul32_eq (by omega), mul32_eq (by omega), add32_eq (show g * bs + j * p.2 < 2 ^ 32 by omega), add32_eq (by omega), add32_eq (by omega)]

theorem total_eq (h : MkOk workers ideal size bs) :
    mul32 (ceilDiv32 size bs) (mkSplit workers ideal bs).1 = cdiv size bs * (mkSplit workers ideal bs).1 ∧ ceilDiv32 size bs = cdiv size bs := by
  obtain ⟨h1, h2, h3, h4, h5, h6⟩ := mkSplit_facts (workers := workers) h.bpos h.ipos h.bsum h.cores
  have hsum := h.sum
  have e := ceilDiv32_eq (a := size) h.bpos (by omega)
  rw [e]
  refine ⟨?_, rfl⟩
  have h7 := cdiv_mul_lt (a := size) h.bpos
  have : cdiv size bs * (mkSplit workers ideal bs).1 ≤ cdiv size bs * bs := Nat.mul_le_mul_left _ h6
  exact mul32_eq (by omega)

/-- First task's worth of facts in usable form -/
theorem mkRange_le (h : MkOk workers ideal size bs) {t : Nat} (ht : t < cdiv size bs * (mkSplit workers ideal bs).1) :
    (mkRange (mkSplit workers ideal bs).1 (mkSplit workers ideal bs).2 bs size t).1 ≤
      (mkRange (mkSplit workers ideal bs).1 (mkSplit workers ideal bs).2 bs size t).2 ∧
    (mkRange (mkSplit workers ideal bs).1 (mkSplit workers ideal bs).2 bs size t).2 ≤ size := by
  obtain ⟨_, _, _, h4, h5, h6⟩ := mkRange_facts h ht
  rw [h4, h5]
  omega

theorem mkRange_index (h : MkOk workers ideal size bs) {t i : Nat} (ht : t < cdiv size bs * (mkSplit workers ideal bs).1)
    (h1 : (mkRange (mkSplit workers ideal bs).1 (mkSplit workers ideal bs).2 bs size t).1 ≤ i)
    (h2 : i < (mkRange (mkSplit workers ideal bs).1 (mkSplit workers ideal bs).2 bs size t).2) :
    i / bs = t / (mkSplit workers ideal bs).1 ∧ i % bs / (mkSplit workers ideal bs).2 = t % (mkSplit workers ideal bs).1 := by
  obtain ⟨_, _, _, h4, h5, h6⟩ := mkRange_facts h ht
  rw [h4] at h1
  rw [h5] at h2
  obtain ⟨p1, p2, _⟩ := mkSplit_facts (workers := workers) h.bpos h.ipos h.bsum h.cores
  generalize mkSplit workers ideal bs = p at *
  have e : i / bs = t / p.1 := by rw [Nat.div_eq_iff h.bpos]; omega
  refine ⟨e, ?_⟩
  have h7 := Nat.div_add_mod i bs
  rw [e, Nat.mul_comm] at h7
  rw [Nat.div_eq_iff p2]
  omega

theorem mkSplit_split (h : MkOk workers ideal size bs) :
    Split size (cdiv size bs * (mkSplit workers ideal bs).1)
      (fun t => (mkRange (mkSplit workers ideal bs).1 (mkSplit workers ideal bs).2 bs size t).1)
      (fun t => (mkRange (mkSplit workers ideal bs).1 (mkSplit workers ideal bs).2 bs size t).2) := by
  refine ⟨fun t ht => (mkRange_le h ht).2, fun t t' ht ht' hne i h1 h2 => ?_, fun i hi => ?_⟩
  · rintro ⟨h3, h4⟩
    obtain ⟨e1, e2⟩ := mkRange_index h ht h1 h2
    obtain ⟨e3, e4⟩ := mkRange_index h ht' h3 h4
    apply hne
    rw [← Nat.div_add_mod t (mkSplit workers ideal bs).1, ← Nat.div_add_mod t' (mkSplit workers ideal bs).1, ← e1, ← e2, ← e3, ← e4]
  · have hf := fun t ht => mkRange_facts h (t := t) ht
    obtain ⟨p1, p2, p3, p4, p5, _⟩ := mkSplit_facts (workers := workers) h.bpos h.ipos h.bsum h.cores
    have hbp := h.bpos
    generalize mkSplit workers ideal bs = p at *
    have hg : i / bs < cdiv size bs := (lt_cdiv hbp).2 (lt_of_le_of_lt (Nat.div_mul_le_self i bs) hi)
    have hr := Nat.mod_lt i hbp
    have hj : i % bs / p.2 < p.1 := by rw [Nat.div_lt_iff_lt_mul p2]; omega
    obtain ⟨t1, t2, t3⟩ := task_index p1 hg hj
    refine ⟨i / bs * p.1 + i % bs / p.2, t1, ?_⟩
    obtain ⟨_, _, _, h4, h5, h6⟩ := hf _ t1
    rw [t2, t3] at h4 h5
    rw [h4, h5]
    have h7 := Nat.div_add_mod i bs
    have h8 := Nat.div_add_mod (i % bs) p.2
    have h9 := Nat.mod_lt (i % bs) p2
    rw [Nat.mul_comm] at h7 h8
    omega

/-- The elements of a group seen by its first tasks -/
theorem group_sum (h : MkOk workers ideal size bs) (v : Nat → Nat) (b g : Nat) (hg : g < cdiv size bs) :
    (∀ J, J < (mkSplit workers ideal bs).1 →
      sumN (fun j => eqC v b (mkRange (mkSplit workers ideal bs).1 (mkSplit workers ideal bs).2 bs size (g * (mkSplit workers ideal bs).1 + j)).1
        (mkRange (mkSplit workers ideal bs).1 (mkSplit workers ideal bs).2 bs size (g * (mkSplit workers ideal bs).1 + j)).2) J =
      eqC v b (g * bs) (g * bs + J * (mkSplit workers ideal bs).2)) ∧
    groupC (fun t b => eqC v b (mkRange (mkSplit workers ideal bs).1 (mkSplit workers ideal bs).2 bs size t).1
        (mkRange (mkSplit workers ideal bs).1 (mkSplit workers ideal bs).2 bs size t).2) (mkSplit workers ideal bs).1 g b =
      eqC v b (g * bs) (min (g * bs + bs) size) := by
  have hf := fun t ht => mkRange_facts h (t := t) ht
  obtain ⟨p1, p2, p3, p4, p5, _⟩ := mkSplit_facts (workers := workers) h.bpos h.ipos h.bsum h.cores
  generalize mkSplit workers ideal bs = p at *
  have key : ∀ J, J < p.1 → sumN (fun j => eqC v b (mkRange p.1 p.2 bs size (g * p.1 + j)).1 (mkRange p.1 p.2 bs size (g * p.1 + j)).2) J =
      eqC v b (g * bs) (g * bs + J * p.2) := by
    intro J
    induction J with
    | zero => intro _; rw [eqC_self (by omega)]; rfl
    | succ J ih =>
      intro hJ
      unfold sumN
      rw [ih (by omega)]
      obtain ⟨t1, t2, t3⟩ := task_index p1 hg (show J < p.1 by omega)
      obtain ⟨_, _, _, h4, h5, h6⟩ := hf _ t1
      obtain ⟨t1', t2', t3'⟩ := task_index p1 hg hJ
      obtain ⟨_, _, _, _, _, h6'⟩ := hf _ t1'
      rw [t2, t3] at h4 h5
      rw [t2', t3', Nat.add_mul, Nat.one_mul] at h6'
      rw [h4, h5, Nat.add_mul, Nat.one_mul, show min (g * bs + J * p.2 + p.2) (min (g * bs + bs) size) = g * bs + (J * p.2 + p.2) by omega]
      exact eqC_add (by omega) (by omega)
  refine ⟨key, ?_⟩
  unfold groupC
  obtain ⟨J, hJ⟩ : ∃ J, p.1 = J + 1 := ⟨p.1 - 1, by omega⟩
  obtain ⟨t1, t2, t3⟩ := task_index p1 hg (show J < p.1 by omega)
  obtain ⟨_, _, _, h4, h5, h6⟩ := hf _ t1
  rw [t2, t3] at h4 h5 h6
  have hlast : sumN (fun j => eqC v b (mkRange p.1 p.2 bs size (g * p.1 + j)).1 (mkRange p.1 p.2 bs size (g * p.1 + j)).2) p.1 =
      sumN (fun j => eqC v b (mkRange p.1 p.2 bs size (g * p.1 + j)).1 (mkRange p.1 p.2 bs size (g * p.1 + j)).2) J +
        eqC v b (mkRange p.1 p.2 bs size (g * p.1 + J)).1 (mkRange p.1 p.2 bs size (g * p.1 + J)).2 := by
    conv_lhs => rw [hJ]
    rw [sumN, ← hJ]
  rw [hlast, key J (by omega), h4, h5]
  have h7 : p.1 * p.2 = J * p.2 + p.2 := by rw [hJ, Nat.add_mul, Nat.one_mul]
  rw [show min (g * bs + J * p.2 + p.2) (min (g * bs + bs) size) = min (g * bs + bs) size by omega]
  exact eqC_add (by omega) (by omega)

end

/-! ### The property -/

/-- Position of element `i` in the permutation -/
def gpos (v : Nat → Nat) (size bs i : Nat) : Nat := i / bs * bs + pos v (i / bs * bs) (min (i / bs * bs + bs) size) i

theorem gpos_facts {v : Nat → Nat} {size bs bc : Nat} (hb : 0 < bs) (hv : ∀ i, i < size → v i < bc) {i : Nat} (hi : i < size) :
    i / bs * bs ≤ i ∧ i < min (i / bs * bs + bs) size ∧ gpos v size bs i < min (i / bs * bs + bs) size ∧ gpos v size bs i / bs = i / bs := by
  have h1 := Nat.div_add_mod i bs
  have h2 := Nat.mod_lt i hb
  rw [Nat.mul_comm] at h1
  have h3 : i < min (i / bs * bs + bs) size := by omega
  have h4 := pos_lt (v := v) (bc := bc) (lo := i / bs * bs) (hi := min (i / bs * bs + bs) size) (i := i) (by omega) h3
    (fun k _ hk => hv k (by omega))
  refine ⟨by omega, h3, by unfold gpos; omega, ?_⟩
  rw [Nat.div_eq_iff hb]
  unfold gpos
  omega

theorem idx_range (n : Nat) : idx 0 n = List.range n := by unfold idx; rw [Nat.sub_zero, List.range_eq_range']

/-- Memory that may be accessed: the input is read, the outputs are written, and everything may be done
with the allocations. -/
def MkAccess (size bc inb permb : Nat) (offs : Option Nat) (cntb : Nat) (as : List (Nat × Nat)) (w : Bool) (l : Loc) : Prop :=
  (w = false ∧ l.1 = inb ∧ l.2 < size) ∨ (w = true ∧ l.1 = permb ∧ l.2 < size) ∨ (w = true ∧ offs = some l.1 ∧ l.2 < 4 * bc) ∨
  (w = true ∧ l = (cntb, 0)) ∨ ∃ a, a ∈ as ∧ l.1 = a.1 ∧ l.2 < a.2

/-- **C26.**  For every array of bucket numbers, every group size, number of threads and interleaving:

* within each group, the permutation lists the elements bucket by bucket, and within each bucket in
  increasing order;
* for a single group and if requested, the return value is the number of nonempty buckets, and the
  entries describe these buckets (number, number of elements in previous buckets, number of elements, 0);
  otherwise, the return value is zero;
* accesses are within bounds, and nothing else is modified. -/
theorem C26_mkperm_partial (workers ideal size bs bc inb permb : Nat) (offs : Option Nat) (cntb fresh : Nat)
    (h : MkOk workers ideal size bs) (hbc : 0 < bc)
    (h1 : inb ≠ permb) (h2 : inb ≠ cntb) (h3 : permb ≠ cntb) (hin : inb < fresh) (hperm : permb < fresh) (hcnt : cntb < fresh)
    (hoffs : ∀ ob, offs = some ob → ob < fresh ∧ bc ≤ 2 ^ 30 ∧ ob ≠ inb ∧ ob ≠ permb ∧ ob ≠ cntb) :
    ∃ ps as, blockMkperm workers ideal size bs bc inb permb offs cntb fresh = .ok ps as ∧
      ∀ m : Loc → BitVec 32, (∀ i, i < size → (m (inb, i)).toNat < bc) →
        let v := fun i => (m (inb, i)).toNat
        let count := fun b => (List.range size).countP (fun i => v i = b)
        let full := (List.range bc).filter (fun b => 0 < count b)
        Safe (MkAccess size bc inb permb offs cntb as) ps m ∧
        (∃ m', Ends ps m m') ∧
        ∀ m', Ends ps m m' →
          (∀ g, g * bs < size →
            slice (fun k => (m' (permb, k)).toNat) (g * bs) (min (g * bs + bs) size) =
              (List.range bc).flatMap fun b => (List.range' (g * bs) (min bs (size - g * bs))).filter fun i => v i = b) ∧
          (m' (cntb, 0)).toNat = (if size ≤ bs ∧ offs.isSome then full.length else 0) ∧
          (size ≤ bs → ∀ ob, offs = some ob → ∀ k b, full[k]? = some b →
            (m' (ob, 4 * k)).toNat = b ∧ (m' (ob, 4 * k + 1)).toNat = (List.range size).countP (fun i => v i < b) ∧
            (m' (ob, 4 * k + 2)).toNat = count b ∧ (m' (ob, 4 * k + 3)).toNat = 0) ∧
          ∀ l : Loc, l.1 < fresh → ¬ (l.1 = permb ∧ l.2 < size) → ¬ (size ≤ bs ∧ offs = some l.1 ∧ l.2 < 4 * bc) → l ≠ (cntb, 0) → m' l = m l := by
  obtain ⟨hN, hn⟩ := total_eq h
  have hsp := h.spos
  have hbp := h.bpos
  have hsum := h.sum
  unfold blockMkperm
  rw [if_neg (by omega), if_neg (by omega), if_neg (by omega), hN, hn]
  refine ⟨_, _, rfl, fun m hv => ?_⟩
  intro v count full
  obtain ⟨p1, p2, p3, p4, p5, p6⟩ := mkSplit_facts (workers := workers) h.bpos h.ipos h.bsum h.cores
  have hcf := fun t ht => mkRange_facts h (t := t) ht
  have hcle := fun t ht => mkRange_le h (t := t) ht
  have hsplit := mkSplit_split h
  have hidx := fun t i ht => mkRange_index h (t := t) (i := i) ht
  have hgs := fun b g hg => group_sum h v b g hg
  generalize mkSplit workers ideal bs = p at *
  generalize hcd : mkRange p.1 p.2 bs size = c at *
  have hsz : size < 2 ^ 32 := by omega
  -- names for the counts
  have hC : ∀ g b, g < cdiv size bs → groupC (fun t b => eqC v b (c t).1 (c t).2) p.1 g b = eqC v b (g * bs) (min (g * bs + bs) size) :=
    fun g b hg => (hgs b g hg).2
  generalize hCd : (fun t b => eqC v b (c t).1 (c t).2) = C at *
  have hCe : ∀ t b, C t b = eqC v b (c t).1 (c t).2 := fun t b => by rw [← hCd]
  have hltsize : ∀ i, i < size → gpos v size bs i < size := fun i hi => by have := (gpos_facts (v := v) hbp hv hi).2.2.1; omega
  have hinj : ∀ i j, i < size → j < size → gpos v size bs i = gpos v size bs j → i = j := by
    intro i j hi hj e
    obtain ⟨a1, a2, a3, a4⟩ := gpos_facts (v := v) hbp hv hi
    obtain ⟨b1, b2, b3, b4⟩ := gpos_facts (v := v) hbp hv hj
    have hq : i / bs = j / bs := by rw [← a4, e, b4]
    unfold gpos at e
    rw [hq] at e a1 a2
    exact pos_inj (v := v) (bc := bc) a1 a2 b1 b2 (fun k _ hk => hv k (by omega)) (by omega)
  have hposn : ∀ t i, t < cdiv size bs * p.1 → (c t).1 ≤ i → i < (c t).2 → gpos v size bs i = finalV C p.1 bs t (v i) + eqC v (v i) (c t).1 i := by
    intro t i ht hi1 hi2
    obtain ⟨e1, e2⟩ := hidx t i ht hi1 hi2
    obtain ⟨f1, f2, f3, f4, f5, f6⟩ := hcf t ht
    unfold finalV
    rw [sumN_congr (g := fun b' => eqC v b' (t / p.1 * bs) (min (t / p.1 * bs + bs) size)) (fun b' _ => hC _ _ f1), ← ltC_eq_sum]
    have hs1 := (hgs (v i) _ f1).1 _ f3
    simp only [hCe]
    rw [hs1, ← f4]
    unfold gpos pos
    rw [e1, ← eqC_add (v := v) (b := v i) (lo := t / p.1 * bs) (mid := (c t).1) (hi := i) (by omega) (by omega)]
    omega
  have hS : ∀ g b, g < cdiv size bs → b < bc → groupC C p.1 g b < 2 ^ 32 := by
    intro g b hg _
    rw [hC g b hg]
    have := eqC_le (v := v) (b := b) (lo := g * bs) (hi := min (g * bs + bs) size)
    omega
  -- phases
  obtain ⟨A1, A2⟩ := histPhase (N := cdiv size bs * p.1) (fun t ht => hcle t ht) hsz hin m hv
  have hoffs' : ∀ ob, offs = some ob → ob < fresh ∧ bc ≤ 2 ^ 30 ∧ ob ≠ cntb := fun ob e => ⟨(hoffs ob e).1, (hoffs ob e).2.1, (hoffs ob e).2.2.2.2⟩
  have hacc : ∀ m1 : Loc → BitVec 32, (∀ t b, t < cdiv size bs * p.1 → b < bc → m1 (fresh + t, b) = BitVec.ofNat 32 (C t b)) →
      ∀ i, i < 1 → wp (accR (cdiv size bs) p.1 bc fresh) (accW (cdiv size bs) p.1 bc fresh offs cntb) (accTask (cdiv size bs) p.1 bs bc fresh offs cntb i) m1
        (fun _ m' => (∀ t b, t < cdiv size bs * p.1 → b < bc → m' (fresh + t, b) = BitVec.ofNat 32 (finalV C p.1 bs t b)) ∧
          Offs (cdiv size bs) offs (groupC C p.1 0) bc (m' (cntb, 0)) m') := by
    intro m1 hm1 i hi
    have hi0 : i = 0 := by omega
    subst hi0
    exact accTask_wp p1 (fun g hg => by have := (lt_cdiv (a := size) hbp).1 hg; omega) hoffs' hcnt hS hm1
  have hone : ∀ (R W : Set Loc) (i j : Nat), i < 1 → j < 1 → i ≠ j → ∀ l : Loc, l ∈ W → l ∉ R ∧ l ∉ W := by
    intro R W i j hi hj hij; omega
  -- after two phases
  have hmid : ∀ m1 m2 : Loc → BitVec 32, Phase.Ends (cdiv size bs * p.1, histTask c bc inb fresh) m m1 →
      Phase.Ends (1, accTask (cdiv size bs) p.1 bs bc fresh offs cntb) m1 m2 →
      (∀ t b, t < cdiv size bs * p.1 → b < bc → m2 (fresh + t, b) = BitVec.ofNat 32 (finalV C p.1 bs t b)) ∧
      Offs (cdiv size bs) offs (groupC C p.1 0) bc (m2 (cntb, 0)) m2 ∧
      ∀ l : Loc, l.1 < fresh → ¬ (cdiv size bs = 1 ∧ offs = some l.1 ∧ l.2 < 4 * bc) → l ≠ (cntb, 0) → m2 l = m l := by
    intro m1 m2 hm1 hm2
    obtain ⟨b1, b2⟩ := A1 m1 hm1
    obtain ⟨c1, c2⟩ := phase_spec (R := fun _ => accR (cdiv size bs) p.1 bc fresh) (W := fun _ => accW (cdiv size bs) p.1 bc fresh offs cntb)
      (fun i j hi hj hij => hone _ _ i j hi hj hij) (hacc m1 (fun t b ht hb => by rw [b1 t b ht hb, hCe])) hm2
    obtain ⟨mi, d1, d2, d3⟩ := c1 0 (by omega)
    refine ⟨fun t b ht hb => ?_, ?_, fun l hl hl2 hl3 => ?_⟩
    · rw [d2 _ (Or.inl ⟨t, b, ht, hb, rfl⟩)]
      exact d1.1 t b ht hb
    · have := d1.2
      rw [d2 _ (Or.inr (Or.inr rfl))]
      unfold Offs at this ⊢
      split
      · rename_i hn1
        rw [if_pos hn1] at this
        refine ⟨this.1, fun ob hob => ?_⟩
        rw [← this.2 ob hob]
        apply List.map_congr_left
        intro k hk
        apply entry_congr
        intro i hi
        rw [List.mem_range] at hk
        have := nonEmpty_length (groupC C p.1 0) bc
        exact d2 _ (Or.inr (Or.inl ⟨hn1.1, hob, by simp only; omega⟩))
      · rename_i hn1
        rw [if_neg hn1] at this
        exact this
    · rw [c2 l ?_, b2 l ?_]
      · rintro t ht ⟨e, _⟩; omega
      · rintro _ _ (⟨t, b, _, _, rfl⟩ | e | e)
        · simp only at hl; omega
        · exact hl2 e
        · exact hl3 e
  have hsame : ∀ m2 : Loc → BitVec 32,
      (∀ l : Loc, l.1 < fresh → ¬ (cdiv size bs = 1 ∧ offs = some l.1 ∧ l.2 < 4 * bc) → l ≠ (cntb, 0) → m2 l = m l) →
      ∀ i, m2 (inb, i) = m (inb, i) := by
    intro m2 e i
    exact e _ hin (fun e' => (hoffs _ e'.2.1).2.2.1 rfl) (fun e' => h2 (congrArg Prod.fst e'))
  have hphase3 : ∀ m2 : Loc → BitVec 32, (∀ i, m2 (inb, i) = m (inb, i)) →
      (∀ t b, t < cdiv size bs * p.1 → b < bc → m2 (fresh + t, b) = BitVec.ofNat 32 (finalV C p.1 bs t b)) →
      (∀ m', Phase.Ends (cdiv size bs * p.1, permTask c inb permb fresh) m2 m' →
        (∀ i, i < size → m' (permb, gpos v size bs i) = BitVec.ofNat 32 i) ∧
        ∀ l : Loc, l.1 < fresh → l ∉ cells permb 0 size → m' l = m2 l) ∧
      ∀ ok : Bool → Loc → Prop, (∀ i, i < size → ok false (inb, i)) → (∀ w t b, t < cdiv size bs * p.1 → b < bc → ok w (fresh + t, b)) →
        (∀ i, i < size → ok true (permb, i)) → Phase.Safe (cdiv size bs * p.1, permTask c inb permb fresh) ok m2 := by
    intro m2 e1 e2
    refine permPhase (fun t ht => hcle t ht) hsplit hsz hin hperm h1 m2 (fun i hi => by rw [e1]; exact hv i hi) (finalV C p.1 bs) e2
      (gpos v size bs) ?_ hltsize hinj
    intro t i ht hi1 hi2
    simp only [e1]
    exact hposn t i ht hi1 hi2
  have hn1 : cdiv size bs = 1 ↔ size ≤ bs := by
    constructor
    · intro e
      have := cdiv_mul_ge (a := size) hbp
      rw [e] at this; omega
    · intro e
      have e1 := cdiv_le (a := size) (b := bs) (c := 1) hbp (by omega)
      have e2 := cdiv_pos hsp hbp
      omega
  refine ⟨?_, ends_exists _ _, ?_⟩
  · have okhist : ∀ w t b, t < cdiv size bs * p.1 → b < bc →
        MkAccess size bc inb permb offs cntb ((List.range (cdiv size bs * p.1)).map fun t => (fresh + t, bc)) w (fresh + t, b) := by
      intro w t b ht hb
      exact Or.inr (Or.inr (Or.inr (Or.inr ⟨(fresh + t, bc), List.mem_map.2 ⟨t, List.mem_range.2 ht, rfl⟩, rfl, hb⟩)))
    refine ⟨A2 _ (fun i hi => Or.inl ⟨rfl, rfl, hi⟩) okhist, fun m1 hm1 => ⟨?_, fun m2 hm2 => ⟨?_, fun _ _ => trivial⟩⟩⟩
    · obtain ⟨b1, b2⟩ := A1 m1 hm1
      refine phase_safe (R := fun _ => accR (cdiv size bs) p.1 bc fresh) (W := fun _ => accW (cdiv size bs) p.1 bc fresh offs cntb)
        (fun i j hi hj hij => hone _ _ i j hi hj hij) (hacc m1 (fun t b ht hb => by rw [b1 t b ht hb, hCe])) ?_ ?_
      · rintro _ _ l ⟨t, b, ht, hb, rfl⟩
        exact okhist _ t b ht hb
      · rintro _ _ l (⟨t, b, ht, hb, rfl⟩ | ⟨_, e1, e2⟩ | e)
        · exact okhist _ t b ht hb
        · exact Or.inr (Or.inr (Or.inl ⟨rfl, e1, e2⟩))
        · exact Or.inr (Or.inr (Or.inr (Or.inl ⟨rfl, e⟩)))
    · obtain ⟨e1, _, e3⟩ := hmid m1 m2 hm1 hm2
      exact (hphase3 m2 (hsame m2 e3) e1).2 _ (fun i hi => Or.inl ⟨rfl, rfl, hi⟩) okhist (fun i hi => Or.inr (Or.inl ⟨rfl, rfl, hi⟩))
  · rintro m3 ⟨m1, hm1, m2, hm2, m3', hm3, he⟩
    have he : m3 = m3' := he
    subst he
    obtain ⟨e1, e2, e3⟩ := hmid m1 m2 hm1 hm2
    obtain ⟨f1, f2⟩ := (hphase3 m2 (hsame m2 e3) e1).1 _ hm3
    have hS0 : ∀ b, size ≤ bs → groupC C p.1 0 b = count b := by
      intro b hle
      rw [hC 0 b (by rw [hn1.2 hle]; omega), Nat.zero_mul, Nat.zero_add, show min bs size = size by omega]
      show (idx 0 size).countP _ = _
      rw [idx_range]
    have hfull : size ≤ bs → nonEmpty (groupC C p.1 0) bc = full := by
      intro hle
      unfold nonEmpty
      apply List.filter_congr
      intro b _
      rw [hS0 b hle]
    have hcle' : ∀ b, count b ≤ size := by
      intro b
      have := List.countP_le_length (p := fun i => decide (v i = b)) (l := List.range size)
      rw [List.length_range] at this; exact this
    refine ⟨?_, ?_, ?_, ?_⟩
    · intro g hg
      have := eq_sorted (v := v) (bc := bc) (lo := g * bs) (hi := min (g * bs + bs) size) (by omega) (fun k _ hk => hv k (by omega))
        (p := fun k => (m3 (permb, k)).toNat) (by
          intro i hi1 hi2
          have hq : i / bs = g := by rw [Nat.div_eq_iff hbp]; omega
          have := f1 i (by omega)
          unfold gpos at this
          rw [hq] at this
          rw [this, BitVec.toNat_ofNat]
          exact Nat.mod_eq_of_lt (by omega))
      rw [this]
      unfold sorted idx
      rw [show min (g * bs + bs) size - g * bs = min bs (size - g * bs) by omega]
    · rw [f2 _ hcnt (fun e => h3 e.1.symm)]
      unfold Offs at e2
      split
      · rename_i hc
        rw [if_pos ⟨hn1.2 hc.1, hc.2⟩] at e2
        rw [e2.1, hfull hc.1, BitVec.toNat_ofNat]
        obtain ⟨ob, hob⟩ := Option.isSome_iff_exists.1 hc.2
        have e4 : full.length ≤ bc := by
          have := List.length_filter_le (fun b => decide (0 < count b)) (List.range bc)
          rw [List.length_range] at this; exact this
        have := (hoffs ob hob).2.1
        exact Nat.mod_eq_of_lt (by omega)
      · rename_i hc
        rw [if_neg (fun e => hc ⟨hn1.1 e.1, e.2⟩)] at e2
        rw [e2]; rfl
    · intro hle ob hob k b hk
      obtain ⟨o1, o2, o3, o4, o5⟩ := hoffs ob hob
      unfold Offs at e2
      rw [if_pos ⟨hn1.2 hle, by rw [hob]; rfl⟩] at e2
      have e4 := e2.2 ob hob
      rw [hfull hle] at e4
      have e5 := congrArg (fun l => l[k]?) e4
      simp only [List.getElem?_map, hk, Option.map_some] at e5
      have hkl : k < full.length := (List.getElem?_eq_some_iff.1 hk).1
      rw [List.getElem?_range hkl] at e5
      simp only [Option.map_some, Option.some.injEq, entry, descr, List.cons.injEq, and_true] at e5
      have hb : b < bc := by
        have := List.mem_of_getElem? hk
        rw [List.mem_filter, List.mem_range] at this
        exact this.1
      have hob3 : ∀ i, m3 (ob, i) = m2 (ob, i) := fun i => f2 _ o1 (fun e => o4 e.1)
      rw [hob3, hob3, hob3, hob3, e5.1, e5.2.1, e5.2.2.1, e5.2.2.2, hS0 b hle]
      have hlt : sumN (groupC C p.1 0) b = (List.range size).countP (fun i => v i < b) := by
        rw [sumN_congr (g := fun b' => eqC v b' 0 size) (fun b' _ => by rw [hS0 b' hle]; show _ = (idx 0 size).countP _; rw [idx_range]), ← ltC_eq_sum]
        unfold ltC
        rw [idx_range]
      have hltl : (List.range size).countP (fun i => v i < b) ≤ size := by
        have := List.countP_le_length (p := fun i => decide (v i < b)) (l := List.range size)
        rw [List.length_range] at this; exact this
      rw [hlt]
      refine ⟨?_, ?_, ?_, rfl⟩
      · rw [BitVec.toNat_ofNat]; exact Nat.mod_eq_of_lt (by omega)
      · rw [BitVec.toNat_ofNat]; exact Nat.mod_eq_of_lt (by omega)
      · rw [BitVec.toNat_ofNat]
        have := hcle' b
        exact Nat.mod_eq_of_lt (by omega)
    · intro l hl hl1 hl2 hl3
      rw [f2 l hl (fun e => hl1 ⟨e.1, e.2.2⟩)]
      exact e3 l hl (fun e => hl2 ⟨hn1.1 e.1, e.2⟩) hl3

/-! ### When do the tasks fit? -/

/-- A single worker, or groups that fit into one task, or only full groups -/
theorem C26_fits {workers ideal size bs : Nat} (hs : 0 < size) (hb : 0 < bs) (hi : 16 ≤ ideal)
    (hsum : size + max ideal bs < 2 ^ 32) (hbs : bs + max ideal bs ≤ 2 ^ 32) (hc : bs + 4 * workers ≤ 2 ^ 32)
    (h : workers ≤ 1 ∨ bs ≤ ideal ∨ bs ∣ size) : MkOk workers ideal size bs := by
  refine ⟨hs, hb, hi, hsum, hbs, hc, ?_⟩
  obtain ⟨p1, p2, p3, p4, p5, p6⟩ := mkSplit_facts (workers := workers) hb hi hbs hc
  rcases h with h | h | h
  · have e : (mkSplit workers ideal bs).1 = 1 := by unfold mkSplit; rw [if_neg (by omega)]
    rw [e]; simp
  · by_cases hw : workers > 1
    · have e : (mkSplit workers ideal bs).1 ≤ 1 := by
        have h2 : ideal ≤ (mkSplit workers ideal bs).2 := by unfold mkSplit; rw [if_pos hw]; simp only; omega
        generalize mkSplit workers ideal bs = p at *
        by_contra hcon
        have : 1 * p.2 ≤ (p.1 - 1) * p.2 := Nat.mul_le_mul_right _ (by omega)
        omega
      rw [show (mkSplit workers ideal bs).1 - 1 = 0 by omega]; simp
    · have e : (mkSplit workers ideal bs).1 = 1 := by unfold mkSplit; rw [if_neg (by omega)]
      rw [e]; simp
  · obtain ⟨k, rfl⟩ := h
    have hk : 0 < k := by
      rcases Nat.eq_zero_or_pos k with e | e
      · subst e; omega
      · exact e
    have e : cdiv (bs * k) bs = k := by
      have e1 := cdiv_le (a := bs * k) (b := bs) (c := k) hb (by rw [Nat.mul_comm])
      have e2 : k - 1 < cdiv (bs * k) bs := (lt_cdiv hb).2 (by rw [Nat.mul_comm bs k]; exact Nat.mul_lt_mul_of_pos_right (by omega) hb)
      omega
    rw [e]
    have e3 : bs * k = (k - 1) * bs + bs := by
      obtain ⟨k', rfl⟩ : ∃ k', k = k' + 1 := ⟨k - 1, by omega⟩
      rw [Nat.add_sub_cancel, Nat.mul_add, Nat.mul_comm bs k', Nat.mul_one]
    omega

/-- The hypotheses can be met: three groups of 40000 elements, four workers; one group -/
example : MkOk 4 16384 120000 40000 ∧ (mkSplit 4 16384 40000) = (3, 16384) :=
  ⟨C26_fits (by omega) (by omega) (by omega) (by omega) (by omega) (by omega) (Or.inr (Or.inr ⟨3, rfl⟩)), by decide +kernel⟩
example : MkOk 4 16384 1000000 1000000 :=
  C26_fits (by omega) (by omega) (by omega) (by omega) (by omega) (by omega) (Or.inr (Or.inr ⟨1, rfl⟩))

/-! ### A partial last group -/

theorem run_prefix {α : Type} (p : Prog Loc (BitVec 32) α) (f : α → Prog Loc (BitVec 32) Unit) (i : Nat) :
    ∀ (m : Loc → BitVec 32) (ps : Nat → Prog Loc (BitVec 32) Unit), ps i = p.bind f →
      ∃ m' ps' a, PSteps (m, ps) (m', ps') ∧ ps' i = f a := by
  induction p with
  | pure a => intro m ps h; exact ⟨m, ps, a, .refl _, h⟩
  | read l k ih =>
    intro m ps h
    have hst := PStep.read m ps i l (fun v => (k v).bind f) h
    obtain ⟨m', ps', a, h1, h2⟩ := ih (m l) m (fun j => if j = i then (k (m l)).bind f else ps j) (by simp)
    exact ⟨m', ps', a, psteps_trans ((PSteps.refl _).step hst) h1, h2⟩
  | write l v k ih =>
    intro m ps h
    have hst := PStep.write m ps i l v (k.bind f) h
    obtain ⟨m', ps', a, h1, h2⟩ := ih (upd m l v) (fun j => if j = i then k.bind f else ps j) (by simp)
    exact ⟨m', ps', a, psteps_trans ((PSteps.refl _).step hst) h1, h2⟩

theorem loop_head {α : Type} {n : Nat} (hn : 0 < n) (a : α) (body : Nat → α → Prog Loc (BitVec 32) α) {l : Loc}
    {k : BitVec 32 → Prog Loc (BitVec 32) α} (h : body 0 a = .read l k) : ∃ k', Prog.loop n a body = .read l k' := by
  obtain ⟨n, rfl⟩ : ∃ n', n = n' + 1 := ⟨n - 1, by omega⟩
  induction n with
  | zero => exact ⟨k, by rw [Prog.loop, Prog.loop, Prog.bind, h]⟩
  | succ n ih =>
    obtain ⟨k', hk'⟩ := ih (by omega)
    rw [Prog.loop, hk']
    exact ⟨_, rfl⟩

/-- A task whose range starts behind its end reads beyond the array. -/
theorem hist_unsafe {N bc inb fresh t : Nat} {c : Nat → Nat × Nat} (ht : t < N) (h1 : (c t).2 < (c t).1) (h2 : (c t).1 < 2 ^ 32)
    {ok : Bool → Loc → Prop} (hok : ¬ ok false (inb, (c t).1)) (m : Loc → BitVec 32) :
    ¬ Phase.Safe (N, histTask c bc inb fresh) ok m := by
  intro hs
  obtain ⟨m', ps', a, h3, h4⟩ := run_prefix (forLt 0 bc fun b => Prog.put (fresh + t, b) 0)
    (fun _ => forNe (c t).1 (c t).2 fun i =>
      (Prog.get (inb, i)).bind fun v => (Prog.get (fresh + t, v.toNat)).bind fun x => Prog.put (fresh + t, v.toNat) (x + 1))
    t m (tasks N (histTask c bc inb fresh)) (by simp only [tasks, if_pos ht]; rfl)
  obtain ⟨k', hk'⟩ := loop_head (n := ((c t).2 + (2 ^ 32 - (c t).1)) % 2 ^ 32) (by omega) ()
    (fun k _ => (fun i => (Prog.get (inb, i)).bind fun v => (Prog.get (fresh + t, v.toNat)).bind fun x => Prog.put (fresh + t, v.toNat) (x + 1))
      (((c t).1 + k) % 2 ^ 32)) (l := (inb, (c t).1)) (k := fun v => (Prog.get (fresh + t, v.toNat)).bind fun x => Prog.put (fresh + t, v.toNat) (x + 1))
    (by simp only [Prog.get, Prog.bind, Nat.add_zero, Nat.mod_eq_of_lt h2])
  exact hok ((hs m' ps' t h3).1 _ k' (h4.trans hk'))

/-- **C26 (negation).**  With several workers, a last group that is not full can make a task run through
all of the memory: 32769 elements in groups of 32768, two workers.  (The range of the last task of the
second group is `49152 .. 32769`, and the loop runs until the counter is equal to the end.) -/
theorem C26_partial_group_unsafe (bc inb permb : Nat) (offs : Option Nat) (cntb fresh : Nat) (hbc : 0 < bc) (hin : inb < fresh) (m : Loc → BitVec 32) :
    ∃ ps as, blockMkperm 2 16384 32769 32768 bc inb permb offs cntb fresh = .ok ps as ∧
      ¬ Safe (MkAccess 32769 bc inb permb offs cntb as) ps m := by
  unfold blockMkperm
  rw [if_neg (by omega), if_neg (by omega), if_neg (by omega)]
  have e1 : mkSplit 2 16384 32768 = (2, 16384) := by decide +kernel
  have e2 : ceilDiv32 32769 32768 = 2 := by decide +kernel
  have e3 : mul32 2 2 = 4 := by decide +kernel
  have e4 : mkRange 2 16384 32768 32769 3 = (49152, 32769) := by decide +kernel
  rw [e1, e2]
  simp only
  rw [e3]
  refine ⟨_, _, rfl, fun hs => ?_⟩
  refine hist_unsafe (t := 3) (by omega) (by rw [e4]; simp only; omega) (by rw [e4]; simp only; omega) ?_ m hs.1
  rw [e4]
  rintro (⟨_, _, h⟩ | ⟨h, _⟩ | ⟨h, _⟩ | ⟨h, _⟩ | ⟨a, ha, h, _⟩)
  · simp only at h; omega
  · exact absurd h (by decide)
  · exact absurd h (by decide)
  · exact absurd h (by decide)
  · rw [List.mem_map] at ha
    obtain ⟨t, _, rfl⟩ := ha
    simp only at h
    omega

end Verif.Llvm
