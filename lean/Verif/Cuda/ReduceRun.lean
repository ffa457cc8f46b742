import Verif.Cuda.Reduce
import Verif.Cuda.ReduceSpec
import Verif.Cuda.Geo
import Verif.Cuda.Launch
import Mathlib.Algebra.BigOperators.Group.Multiset.Basic
import Mathlib.Data.Multiset.Bind

/-!
# One kernel of a block reduction
-/
namespace Verif.Cuda

variable {T V : Type}

/-! ### Combining and rounding -/

section
variable {op : V → V → V} {init : V} {toV : T → V} {ofV : V → T}

theorem Comb.rounded {s : Multiset V} {v : V} (h : Comb op init s v) : Rounded op init toV ofV s v := by
  induction h with
  | nil => exact .nil
  | one x => exact .one x
  | node _ _ h1 h2 => exact .node h1 h2

/-- Results of results -/
theorem Rounded.trans {s : Multiset V} {v : V} (h : Rounded op init toV ofV s v) : ∀ t : Multiset (Multiset V), Multiset.Rel (fun a m => Rounded op init toV ofV m a) s t →
    Rounded op init toV ofV t.sum v := by
  induction h with
  | nil =>
    intro t ht
    rw [Multiset.rel_zero_left] at ht
    subst ht
    exact .nil
  | one x =>
    intro t ht
    obtain ⟨m, t', h1, h2, rfl⟩ := Multiset.rel_cons_left.1 (show Multiset.Rel _ (x ::ₘ 0) t from ht)
    rw [Multiset.rel_zero_left] at h2
    subst h2
    simpa using h1
  | node _ _ ih1 ih2 =>
    intro t ht
    obtain ⟨t1, t2, h1, h2, rfl⟩ := Multiset.rel_add_left.1 ht
    rw [Multiset.sum_add]
    exact .node (ih1 t1 h1) (ih2 t2 h2)
  | round _ ih =>
    intro t ht
    exact .round (ih t ht)

theorem Rounded.biUnion {f g : Nat → V} {S : Finset Nat} {E : Nat → Finset Nat} (hE : ∀ i j, i ∈ S → j ∈ S → i ≠ j → Disjoint (E i) (E j)) {v : V} (h : Rounded op init toV ofV (S.val.map g) v)
    (hg : ∀ i, i ∈ S → Rounded op init toV ofV ((E i).val.map f) (g i)) : Rounded op init toV ofV ((S.biUnion E).val.map f) v := by
  have h1 := h.trans (S.val.map fun i => (E i).val.map f) (by
    rw [Multiset.rel_map]
    exact Multiset.rel_refl_of_refl_on fun i hi => hg i hi)
  have hd : (S : Set Nat).PairwiseDisjoint E := fun i hi j hj hij => hE i j hi hj hij
  have e : ((S.biUnion E).val.map f) = (S.val.map fun i => (E i).val.map f).sum := by
    rw [← Finset.disjiUnion_eq_biUnion S E hd]
    show ((S.val.bind fun i => (E i).val).map f) = _
    rw [Multiset.map_bind]
    rfl
  rw [e]; exact h1

theorem butterfly_group {f : Nat → V} {D : Nat → Finset Nat} {g : Nat → V} (hD : Apart D) (n : Nat) : ∀ t, (∀ l, l ∈ group n t → On op init f (D l) (g l)) →
    On op init f ((group n t).biUnion D) (butterfly op n g t) := by
  induction n with
  | zero =>
    intro t h
    have : group 0 t = {t} := by unfold group; ext x; simp only [Finset.mem_Ico, Finset.mem_singleton]; simp; omega
    rw [this, Finset.singleton_biUnion]
    exact h t (by rw [this]; simp)
  | succ n ih =>
    intro t h
    obtain ⟨h1, h2⟩ := group_succ n t
    rw [h1] at h ⊢
    exact On.owners hD h2 (ih t fun l hl => h l (Finset.mem_union_left _ hl)) (ih _ fun l hl => h l (Finset.mem_union_right _ hl))

theorem group_mul (n i : Nat) : group n (i * 2 ^ n) = Finset.Ico (i * 2 ^ n) (i * 2 ^ n + 2 ^ n) := by
  unfold group
  rw [Nat.mul_div_cancel _ (Nat.two_pow_pos n)]

end

/-! ### The thread blocks -/

/-- Facts about a launch; `cp` is the number of chunks per thread block. -/
structure RGeo (K : RLaunch) (cp : Nat) : Prop extends Geo0 K.L cp where
  rev : K.L.rev = false
  chunk : ∀ c t, c < K.L.gx * K.L.gy → t < K.L.threads → K.L.chunk (K.L.at c).1 (K.L.at c).2 t = c * cp + t / K.L.cs
  -- one chunk per thread block, or several small ones
  one : K.L.cs < 128 ∨ (cp = 1 ∧ K.count = K.L.gx * K.L.gy)
  many : K.L.cs < 128 → K.L.large = false ∧ (cp = 128 / K.L.cs ∨ (K.L.gx * K.L.gy = 1 ∧ K.count ≤ cp ∧ cp ≤ 128 / K.L.cs)) ∧ K.L.gx * K.L.gy * (128 / K.L.cs) < 2 ^ 31
  cnt : K.count ≤ K.L.gx * K.L.gy * cp
  th32 : ∃ w, K.L.threads = 32 * w

/-- Elements of a chunk, in units of vectors -/
def RLaunch.vecs (K : RLaunch) (n : Nat) : Finset Nat := (Finset.range K.L.size).filter fun j => j / K.L.bs = n / K.L.cpb ∧ j % K.L.bs / K.L.cs = n % K.L.cpb

section
variable {K : RLaunch} {cp : Nat} {R : Red T V} {x : Nat → T}

theorem RGeo.loaded_on (g : RGeo K cp) {c t : Nat} (hc : c < K.L.gx * K.L.gy) (ht : t < K.L.threads) :
    On R.red R.init (K.load R x) (K.L.elem c t) (K.loaded R x (K.L.at c).1 (K.L.at c).2 t) := by
  unfold RLaunch.loaded Launch.elem
  by_cases h : K.L.valid (K.L.at c).1 (K.L.at c).2 t = true
  · rw [if_pos h, if_pos ⟨hc, ht, h⟩]
    exact On.single _
  · rw [if_neg h, if_neg (fun hh => h hh.2.2)]
    exact On.empty

/-- The elements of the threads of a chunk -/
theorem RGeo.chunk_elems (g : RGeo K cp) {c j : Nat} (hc : c < K.L.gx * K.L.gy) (hj : j < cp) :
    (Finset.Ico (j * K.L.cs) (j * K.L.cs + K.L.cs)).biUnion (K.L.elem c) = K.vecs (c * cp + j) := by
  have hcs := g.cs0
  have hth := g.threads
  have hjl : (j + 1) * K.L.cs ≤ cp * K.L.cs := Nat.mul_le_mul_right _ hj
  rw [Nat.succ_mul] at hjl
  have hrk : ∀ e, K.L.rk e = e % K.L.bs := by
    intro e; unfold Launch.rk; rw [g.rev]; rfl
  have hdj : ∀ t, j * K.L.cs ≤ t → t < j * K.L.cs + K.L.cs → t / K.L.cs = j ∧ t % K.L.cs = t - j * K.L.cs := by
    intro t h1 h2
    have e : t = (t - j * K.L.cs) + K.L.cs * j := by rw [Nat.mul_comm K.L.cs j]; omega
    have hlt : t - j * K.L.cs < K.L.cs := by omega
    constructor
    · rw [e, Nat.add_mul_div_left _ _ (by omega), Nat.div_eq_of_lt hlt, Nat.zero_add]
    · conv_lhs => rw [e]
      rw [Nat.add_mul_mod_self_left, Nat.mod_eq_of_lt hlt]
  ext e
  simp only [Finset.mem_biUnion, Finset.mem_Ico]
  unfold RLaunch.vecs
  rw [Finset.mem_filter, Finset.mem_range]
  constructor
  · rintro ⟨t, ⟨h1, h2⟩, h3⟩
    obtain ⟨d1, d2⟩ := hdj t h1 h2
    obtain ⟨a1, a2, a3⟩ := (g.elem_iff hc (by omega)).1 h3
    rw [d1] at a2 a3
    rw [hrk] at a3
    refine ⟨a1, a2, ?_⟩
    rw [a3]
    unfold Launch.rank
    rw [d2, Nat.mul_comm, Nat.mul_add_div (by omega), Nat.div_eq_of_lt (by omega), Nat.add_zero]
  · rintro ⟨h1, h2, h3⟩
    have hm := Nat.mod_lt (e % K.L.bs) (show 0 < K.L.cs by omega)
    have hdm := Nat.div_add_mod (e % K.L.bs) K.L.cs
    refine ⟨j * K.L.cs + e % K.L.bs % K.L.cs, ⟨by omega, by omega⟩, ?_⟩
    obtain ⟨d1, d2⟩ := hdj (j * K.L.cs + e % K.L.bs % K.L.cs) (by omega) (by omega)
    rw [g.elem_iff hc (by omega), d1, hrk]
    refine ⟨h1, h2, ?_⟩
    unfold Launch.rank
    rw [d2, ← h3, Nat.add_sub_cancel_left, Nat.mul_comm]
    exact hdm.symm

/-- The number of lanes that work on the same chunk -/
theorem RGeo.active_pow (g : RGeo K cp) : ∃ a r, K.active = 2 ^ a ∧ K.reduced = 2 ^ r ∧ K.L.cs = 2 ^ (r + a) ∧ (1 < K.reduced → a = 5) ∧ (¬ 1 < K.reduced → r = 0) ∧ a ≤ 5 := by
  obtain ⟨k, h1, h2, h3⟩ := g.pow
  by_cases h : 5 ≤ k
  · have h32 : 32 ≤ K.L.cs := by
      rw [h3]
      calc 32 = 2 ^ 5 := rfl
        _ ≤ 2 ^ k := Nat.pow_le_pow_right (by omega) h
    have ha : K.active = 2 ^ 5 := by unfold RLaunch.active; rw [if_pos h32]; rfl
    have hr : K.reduced = 2 ^ (k - 5) := by
      unfold RLaunch.reduced; rw [ha, h3, Nat.pow_div h (by omega)]
    refine ⟨5, k - 5, ha, hr, by rw [h3]; congr 1; omega, fun _ => rfl, fun hn => ?_, by omega⟩
    rw [hr] at hn
    by_contra hc
    exact hn (Nat.one_lt_two_pow hc)
  · have h32 : ¬ 32 ≤ K.L.cs := by
      rw [h3]
      have : 2 ^ k ≤ 2 ^ 4 := Nat.pow_le_pow_right (by omega) (by omega)
      omega
    have ha : K.active = 2 ^ k := by unfold RLaunch.active; rw [if_neg h32, h3]
    have hr : K.reduced = 2 ^ 0 := by
      unfold RLaunch.reduced; rw [ha, h3, Nat.div_self (Nat.two_pow_pos k)]; rfl
    exact ⟨k, 0, ha, hr, by rw [h3, Nat.zero_add], fun hn => by rw [hr] at hn; omega, fun _ => rfl, by omega⟩

/-- Values after the first shuffles, for the first of a group of lanes -/
theorem RGeo.warp_on (g : RGeo K cp) {c i : Nat} (hc : c < K.L.gx * K.L.gy) {a : Nat} (ha : K.active = 2 ^ a) (hi : (i + 1) * 2 ^ a ≤ K.L.threads) :
    On R.red R.init (K.load R x) ((Finset.Ico (i * 2 ^ a) (i * 2 ^ a + 2 ^ a)).biUnion (K.L.elem c)) (K.warp R x (K.L.at c).1 (K.L.at c).2 (i * 2 ^ a)) := by
  unfold RLaunch.warp
  rw [ha, Nat.log2_two_pow, ← group_mul]
  refine butterfly_group (g.apart c) a _ fun l hl => ?_
  rw [group_mul, Finset.mem_Ico] at hl
  rw [Nat.succ_mul] at hi
  exact g.loaded_on hc (by omega)

/-- The value stored for a chunk -/
theorem RGeo.shared_on (g : RGeo K cp) {c j : Nat} (hc : c < K.L.gx * K.L.gy) (hj : j < cp) {sh : Nat → V} (hsh : K.Shared R x (K.L.at c).1 (K.L.at c).2 sh) (hr : 1 < K.reduced) :
    On R.red R.init (K.load R x) (K.vecs (c * cp + j)) (butterfly R.red (Nat.log2 K.reduced) sh (j * K.reduced)) := by
  obtain ⟨a, r, h1, h2, h3, h4, _, _⟩ := g.active_pow
  have ha := h4 hr
  subst ha
  have hcs : K.L.cs = 2 ^ r * 32 := by rw [h3, Nat.pow_add]
  have hjl : (j + 1) * K.L.cs ≤ cp * K.L.cs := Nat.mul_le_mul_right _ hj
  rw [← g.threads, hcs, ← Nat.mul_assoc] at hjl
  rw [h2, Nat.log2_two_pow]
  let D : Nat → Finset Nat := fun i => (Finset.Ico (i * 2 ^ 5) (i * 2 ^ 5 + 2 ^ 5)).biUnion (K.L.elem c)
  have hD : Apart D := by
    intro i i' hii
    refine (g.apart c).biUnion ?_
    rw [Finset.disjoint_left]
    intro e
    simp only [Finset.mem_Ico]
    omega
  have key := butterfly_group (op := R.red) (init := R.init) (f := K.load R x) (g := sh) hD r (j * 2 ^ r) (by
    intro i hi
    rw [group_mul, Finset.mem_Ico] at hi
    have hib : (i + 1) * 32 ≤ (j + 1) * 2 ^ r * 32 := Nat.mul_le_mul_right _ (by rw [Nat.succ_mul]; omega)
    have hw := g.warp_on (R := R) (x := x) hc h1 (i := i) (by rw [show (2 : Nat) ^ 5 = 32 from rfl]; omega)
    rcases hsh i with ⟨t, q1, q2, q3, q4⟩ | hno
    · rw [h1] at q3
      have : t = i * 2 ^ 5 := by rw [show (2 : Nat) ^ 5 = 32 from rfl] at q3 ⊢; omega
      rw [q4, this]; exact hw
    · refine absurd ?_ (hno (i * 32) (by omega) (by omega))
      rw [h1, show (2 : Nat) ^ 5 = 32 from rfl, Nat.mul_div_cancel _ (by omega)])
  have e : (group r (j * 2 ^ r)).biUnion D = K.vecs (c * cp + j) := by
    rw [← g.chunk_elems hc hj, group_mul, hcs]
    ext e
    simp only [D, Finset.mem_biUnion, Finset.mem_Ico]
    rw [show (2 : Nat) ^ 5 = 32 from rfl]
    constructor
    · rintro ⟨i, ⟨i1, i2⟩, t, ⟨t1, t2⟩, h⟩
      refine ⟨t, ⟨?_, ?_⟩, h⟩
      · rw [← Nat.mul_assoc]
        have := Nat.mul_le_mul_right 32 i1
        omega
      · rw [← Nat.mul_assoc]
        have := Nat.mul_le_mul_right 32 (show i + 1 ≤ j * 2 ^ r + 2 ^ r by omega)
        rw [Nat.add_mul (j * 2 ^ r)] at this
        omega
    · rintro ⟨t, ⟨t1, t2⟩, h⟩
      rw [← Nat.mul_assoc] at t1 t2
      exact ⟨t / 32, ⟨by omega, by omega⟩, t, ⟨by omega, by omega⟩, h⟩
  rw [e] at key
  exact key

/-- **One kernel**: the results of all chunks -/
theorem RGeo.runs (g : RGeo K cp) {y y' : Nat → T} (h : K.Runs R x y y') :
    (∀ n, n < K.count → ∃ v, On R.red R.init (K.load R x) (K.vecs n) v ∧ y' n = R.ofV v) ∧ ∀ n, K.count ≤ n → y' n = y n := by
  obtain ⟨sh, hsh, hy⟩ := h
  obtain ⟨a, r, h1, h2, h3, h4, h5, ha5⟩ := g.active_pow
  have hcp := g.cp1
  have hcs := g.cs0
  have hth := g.threads
  -- what is stored
  have key : ∀ c t e v, c < K.L.gx * K.L.gy → t < K.L.threads → K.Stores R x (K.L.at c).1 (K.L.at c).2 (sh c) t e v → e < K.count ∧ ∃ w, On R.red R.init (K.load R x) (K.vecs e) w ∧ v = R.ofV w := by
    intro c t e v hc ht hs
    unfold RLaunch.Stores at hs
    by_cases hr : 1 < K.reduced
    · rw [if_pos hr] at hs
      obtain ⟨s1, s2, s3, s4, s5⟩ := hs
      have ha := h4 hr
      subst ha
      by_cases hm : K.multi = true
      · rw [if_pos hm] at s2 s3 s4
        have hcs128 : K.L.cs < 128 := by simpa [RLaunch.multi] using hm
        obtain ⟨m1, m2, m3⟩ := g.many hcs128
        have hs3 := s3.resolve_left (by simp [hm])
        -- the chunk of this thread
        have hbd : K.blockDim = 128 := by unfold RLaunch.blockDim; rw [if_pos hm]
        rw [hbd] at s1 s3 s4 hs3
        have hatc : (K.L.at c).1 = c := by unfold Launch.at; rw [m1]; rfl
        rw [hatc] at s4 hs3
        have hred : K.reduced * 32 = K.L.cs := by rw [h2, h3, Nat.pow_add]
        have hrpos : 0 < K.reduced := by omega
        have hjlt : t / K.reduced < 128 / K.L.cs := by
          rw [Nat.div_lt_iff_lt_mul hrpos]
          have e1 : 128 / K.active = 4 := by rw [h1]; rfl
          rw [e1] at s1
          -- chunk sizes of 64 elements
          have : K.L.cs = 64 := by
            have hr1 : r = 1 := by
              have hlt : 2 ^ (r + 5) < 2 ^ 7 := by rw [← h3]; exact hcs128
              have := (Nat.pow_lt_pow_iff_right (a := 2) (by omega)).1 hlt
              have hr0 : r ≠ 0 := by
                intro h0
                rw [h0] at h2
                rw [h2] at hr
                omega
              omega
            rw [h3, hr1]; rfl
          rw [this] at hred ⊢
          omega
        have hcb : c * (128 / K.L.cs) + 128 / K.L.cs ≤ K.L.gx * K.L.gy * (128 / K.L.cs) := by
          rw [← Nat.succ_mul]; exact Nat.mul_le_mul_right _ hc
        rw [u32_lt (show c * (128 / K.L.cs) < 2 ^ 32 by omega), u32_lt (by omega)] at s4 hs3
        -- it exists
        have hj : t / K.reduced < cp ∧ e = c * cp + t / K.reduced := by
          rcases m2 with e1 | ⟨e1, e2, e3⟩
          · rw [← e1] at s4 hjlt; exact ⟨hjlt, s4⟩
          · have hc0 : c = 0 := by omega
            subst hc0
            rw [Nat.zero_mul, Nat.zero_add] at *
            exact ⟨by omega, s4⟩
        obtain ⟨hj, he⟩ := hj
        refine ⟨by rw [s4]; exact hs3, _, ?_, s5⟩
        have := g.shared_on (R := R) (x := x) hc hj (hsh c hc) hr
        have ht0 : t / K.reduced * K.reduced = t := by
          have := Nat.div_add_mod t K.reduced
          rw [Nat.mul_comm] at this; omega
        rw [ht0] at this
        rw [he]; exact this
      · rw [if_neg hm] at s2 s3 s4
        have hcs128 : ¬ K.L.cs < 128 := by simpa [RLaunch.multi] using hm
        obtain ⟨o1, o2⟩ := g.one.resolve_left hcs128
        subst o1
        rw [g.pos t ht, Nat.mod_eq_of_lt (by omega)] at s2
        subst s2
        rw [g.chunk c 0 hc ht, Nat.zero_div, Nat.add_zero, Nat.mul_one] at s4
        subst s4
        refine ⟨by rw [o2]; exact hc, _, ?_, s5⟩
        have := g.shared_on (R := R) (x := x) hc (show 0 < 1 by omega) (hsh e hc) hr
        rwa [Nat.zero_mul, Nat.add_zero, Nat.mul_one] at this
    · rw [if_neg hr] at hs
      obtain ⟨s2, s3, s4, s5⟩ := hs
      have hr0 := h5 hr
      subst hr0
      rw [Nat.zero_add] at h3
      rw [g.pos t ht] at s2
      rw [g.chunk c t hc ht] at s3 s4
      have hlt : e < K.count := by
        rw [s4]
        rcases s3 with h | h
        · have hcs128 : ¬ K.L.cs < 128 := by simpa [RLaunch.multi] using h
          obtain ⟨o1, o2⟩ := g.one.resolve_left hcs128
          subst o1
          rw [Nat.div_eq_of_lt (by omega), o2]; omega
        · exact h
      refine ⟨hlt, _, ?_, s5⟩
      have hdm := Nat.div_add_mod t K.L.cs
      have hj : t / K.L.cs < cp := Nat.div_lt_of_lt_mul (by rw [Nat.mul_comm, ← hth]; exact ht)
      have hjl : (t / K.L.cs + 1) * K.L.cs ≤ cp * K.L.cs := Nat.mul_le_mul_right _ hj
      have := g.warp_on (R := R) (x := x) hc h1 (i := t / K.L.cs) (by rw [← h3, hth]; exact hjl)
      rw [← h3, g.chunk_elems hc hj] at this
      have ht0 : t / K.L.cs * K.L.cs = t := by rw [Nat.mul_comm]; omega
      rw [ht0] at this
      rw [s4]; exact this
  refine ⟨fun n hn => ?_, fun n hn => ?_⟩
  · rcases hy n with ⟨c, t, hc, ht, hs⟩ | ⟨hno, _⟩
    · exact (key c t n _ hc ht hs).2
    · exfalso
      have hcnt := g.cnt
      have hc : n / cp < K.L.gx * K.L.gy := Nat.div_lt_of_lt_mul (by rw [Nat.mul_comm]; omega)
      have hj : n % cp < cp := Nat.mod_lt _ (by omega)
      have hdm := Nat.div_add_mod n cp
      have hjl : (n % cp + 1) * K.L.cs ≤ cp * K.L.cs := Nat.mul_le_mul_right _ hj
      rw [Nat.succ_mul] at hjl
      by_cases hr : 1 < K.reduced
      · have ha := h4 hr
        subst ha
        have hred : K.reduced * 32 = K.L.cs := by rw [h2, h3, Nat.pow_add]
        have hle : n % cp * K.reduced ≤ n % cp * K.L.cs := Nat.mul_le_mul_left _ (by omega)
        have hjd : n % cp * K.reduced / K.reduced = n % cp := Nat.mul_div_cancel _ (by omega)
        refine hno (n / cp) (n % cp * K.reduced) (R.ofV (butterfly R.red (Nat.log2 K.reduced) (sh (n / cp)) (n % cp * K.reduced))) hc (by omega) ?_
        unfold RLaunch.Stores
        rw [if_pos hr]
        by_cases hm : K.multi = true
        · have hcs128 : K.L.cs < 128 := by simpa [RLaunch.multi] using hm
          obtain ⟨m1, m2, m3⟩ := g.many hcs128
          have hbd : K.blockDim = 128 := by unfold RLaunch.blockDim; rw [if_pos hm]
          have hatc : (K.L.at (n / cp)).1 = n / cp := by unfold Launch.at; rw [m1]; rfl
          have hcb : (n / cp) * (128 / K.L.cs) + 128 / K.L.cs ≤ K.L.gx * K.L.gy * (128 / K.L.cs) := by
            rw [← Nat.succ_mul]; exact Nat.mul_le_mul_right _ hc
          have hcp128 : cp ≤ 128 / K.L.cs := by rcases m2 with h | h <;> omega
          simp only [if_pos hm, hbd, hatc]
          have hchunk : u32 (u32 (n / cp * (128 / K.L.cs)) + n % cp * K.reduced / K.reduced) = n := by
            rw [hjd, u32_lt (show n / cp * (128 / K.L.cs) < 2 ^ 32 by omega), u32_lt (by omega)]
            rcases m2 with e1 | ⟨e1, e2, e3⟩
            · rw [← e1, Nat.mul_comm]; exact hdm
            · have hc0 : n / cp = 0 := by omega
              rw [hc0, Nat.zero_mul, Nat.zero_add]
              rw [hc0, Nat.mul_zero, Nat.zero_add] at hdm
              exact hdm
          rw [hchunk]
          refine ⟨?_, Nat.mul_mod_left _ _, Or.inr hn, rfl, trivial⟩
          have e1 : 128 / K.active = 4 := by rw [h1]; rfl
          rw [e1]
          have : (n % cp + 1) * K.L.cs ≤ 128 := by
            calc (n % cp + 1) * K.L.cs ≤ 128 / K.L.cs * K.L.cs := Nat.mul_le_mul_right _ (by omega)
              _ ≤ 128 := Nat.div_mul_le_self _ _
          rw [← hred, ← Nat.mul_assoc, Nat.succ_mul] at this
          omega
        · have hcs128 : ¬ K.L.cs < 128 := by simpa [RLaunch.multi] using hm
          obtain ⟨o1, o2⟩ := g.one.resolve_left hcs128
          subst o1
          simp only [if_neg hm]
          have hbd : K.blockDim = K.L.cs := by unfold RLaunch.blockDim; rw [if_neg hm]
          rw [Nat.mod_one, Nat.zero_mul, hbd, g.pos 0 (by omega), g.chunk _ 0 hc (by omega)]
          refine ⟨?_, Nat.zero_mod _, Or.inl (by simpa using hm), by simp, trivial⟩
          exact Nat.div_pos (by rw [h1]; show 32 ≤ _; omega) (by rw [h1]; exact Nat.two_pow_pos 5)
      · refine hno (n / cp) (n % cp * K.L.cs) (R.ofV (K.warp R x (K.L.at (n / cp)).1 (K.L.at (n / cp)).2 (n % cp * K.L.cs))) hc (by omega) ?_
        · unfold RLaunch.Stores
          rw [if_neg hr, g.pos _ (by omega), g.chunk _ _ hc (by omega), Nat.mul_mod_left, Nat.mul_div_cancel _ (by omega), Nat.mul_comm (n / cp), hdm]
          exact ⟨rfl, Or.inr hn, rfl, rfl⟩
  · rcases hy n with ⟨c, t, hc, ht, hs⟩ | ⟨_, h⟩
    · have := (key c t n _ hc ht hs).1
      omega
    · exact h

end

end Verif.Cuda
