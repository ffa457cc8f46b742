import Verif.Llvm.PrefixProps

/-!
# C24: reductions of masks (`/repo/src/init.cpp:920-941`, `/repo/src/util.cpp:153-212`)
-/
namespace Verif.Llvm

open Verif.Par

/-! ### Model -/

/-- Little endian view of bytes as 32-bit words -/
def words (f : Nat → BitVec 8) (k : Nat) : BitVec 32 := f (4 * k + 3) ++ f (4 * k + 2) ++ f (4 * k + 1) ++ f (4 * k)

/-- Byte `i` of a word -/
def byteOf (x : BitVec 32) (i : Nat) : BitVec 8 := x.extractLsb' (8 * i) 8

/-- Number of words (init.cpp:928) -/
def boolWords (size : Nat) : Nat := ceilDiv32 size 4

/-- Number of bytes to be filled (init.cpp:929) -/
def boolTrailing (size : Nat) : Nat := (mul32 (boolWords size) 4 + (2 ^ 32 - size)) % 2 ^ 32

/-- Contents of the array after filling the tail (init.cpp:934-937): `false` for `Or`, `true` otherwise -/
def padded (op : ROp) (size : Nat) (f : Nat → BitVec 8) : Nat → BitVec 8 :=
  fun i => if boolTrailing size ≠ 0 ∧ size ≤ i ∧ i < size + boolTrailing size then (if op = .or then 0 else 1) else f i

/-- `ThreadState::block_reduce_bool` (init.cpp:920-941), after filling the tail -/
def boolPlan (op : ROp) (workers ideal size inb outb fresh : Nat) : Plan (BitVec 32) :=
  blockReduce (intRed false 32 op) 4 workers ideal (boolWords size) (boolWords size) inb outb fresh

/-- The possible values of `tmp` in `jitc_all`/`jitc_any` (util.cpp:176-190, 197-211) after the
reduction, as a word, if the array contains the bytes `f` and `tmp` initially contains `old`.  Buffer
0 is the array, buffer 1 is `tmp`. -/
def BoolOut (op : ROp) (workers ideal size : Nat) (f : Nat → BitVec 8) (old out : BitVec 32) : Prop :=
  ∃ ps as m m', boolPlan op workers ideal size 0 1 2 = .ok ps as ∧ (∀ k, m (0, k) = words (padded op size f) k) ∧
    m (1, 0) = old ∧ Ends ps m m' ∧ out = m' (1, 0)

/-- Result of `jitc_all` (util.cpp:187) -/
def jitAll (out : BitVec 32) : Bool := (byteOf out 0 &&& byteOf out 1 &&& byteOf out 2 &&& byteOf out 3) != 0
/-- Result of `jitc_any` (util.cpp:206) -/
def jitAny (out : BitVec 32) : Bool := (byteOf out 0 ||| byteOf out 1 ||| byteOf out 2 ||| byteOf out 3) != 0

/-- Second step of `jitc_all_async`/`jitc_any_async` (util.cpp:163-171): a reduction of the four bytes,
in place.  The possible values of `out[0]`. -/
def AsyncOut (op : ROp) (workers ideal : Nat) (out : BitVec 32) (res : BitVec 8) : Prop :=
  ∃ ps as m m', blockReduce (intRed false 8 op) 1 workers ideal 4 4 1 1 2 = .ok ps as ∧ (∀ k, k < 4 → m (1, k) = byteOf out k) ∧
    Ends ps m m' ∧ res = m' (1, 0)

/-! ### Proofs -/

theorem boolWords_eq {size : Nat} (h : size + 4 ≤ 2 ^ 32) : boolWords size = cdiv size 4 := ceilDiv32_eq (by omega) h

theorem boolTrailing_eq {size : Nat} (h : size + 4 ≤ 2 ^ 32) : size + boolTrailing size = 4 * cdiv size 4 := by
  have h1 := cdiv_mul_ge (a := size) (b := 4) (by omega)
  have h2 := cdiv_mul_lt (a := size) (b := 4) (by omega)
  unfold boolTrailing
  rw [boolWords_eq h, mul32_eq (by omega)]
  omega

theorem words_getLsb (f : Nat → BitVec 8) (k c i : Nat) (hc : c < 4) (hi : i < 8) :
    (words f k).getLsbD (8 * c + i) = (f (4 * k + c)).getLsbD i := by
  unfold words
  have : c = 0 ∨ c = 1 ∨ c = 2 ∨ c = 3 := by omega
  simp only [BitVec.getLsbD_append]
  rcases this with rfl | rfl | rfl | rfl
  · rw [if_pos (by omega)]; simp
  · rw [if_neg (by omega), if_pos (by omega)]; congr 1; omega
  · rw [if_neg (by omega), if_neg (by omega), if_pos (by omega)]; congr 1; omega
  · rw [if_neg (by omega), if_neg (by omega), if_neg (by omega)]; congr 1; omega

theorem byteOf_getLsb (x : BitVec 32) (c i : Nat) (hi : i < 8) : (byteOf x c).getLsbD i = x.getLsbD (8 * c + i) := by
  simp [byteOf, hi]

theorem mem_slice {T : Type} {f : Nat → T} {lo hi : Nat} {x : T} : x ∈ slice f lo hi ↔ ∃ j, lo ≤ j ∧ j < hi ∧ f j = x := by
  unfold slice
  simp only [List.mem_map, List.mem_range]
  constructor
  · rintro ⟨k, h1, h2⟩; exact ⟨lo + k, by omega, by omega, h2⟩
  · rintro ⟨j, h1, h2, h3⟩; exact ⟨j - lo, by omega, by rw [show lo + (j - lo) = j by omega]; exact h3⟩

section
variable {workers ideal size : Nat} {f : Nat → BitVec 8}

/-- The word that is computed -/
theorem boolOut_spec (op : ROp) (hs : 0 < size) (hs' : size + 4 ≤ 2 ^ 32) (hid : 16 ≤ ideal) (hid' : ideal < 2 ^ 31) (old : BitVec 32) :
    (∃ out, BoolOut op workers ideal size f old out) ∧ ∀ out, BoolOut op workers ideal size f old out →
      IsReduction false op (slice (words (padded op size f)) 0 (cdiv size 4)) out := by
  have hw := boolWords_eq hs'
  have h1 := cdiv_mul_ge (a := size) (b := 4) (by omega)
  have h2 := cdiv_mul_lt (a := size) (b := 4) (by omega)
  have hpos := cdiv_pos (a := size) (b := 4) hs (by omega)
  obtain ⟨ps, as, hp, hspec⟩ := C22_block_reduce (intRed false 32 op) 4 workers ideal (cdiv size 4) (cdiv size 4) 0 1 2
    (by omega) (by omega) (by omega) hid hid' (by omega) (by omega) (by omega) (by omega) (by omega)
  have hp' : boolPlan op workers ideal size 0 1 2 = .ok ps as := by unfold boolPlan; rw [hw]; exact hp
  constructor
  · obtain ⟨m', hm'⟩ := (hspec (fun l => if l.1 = 0 then words (padded op size f) l.2 else old)).2.1
    exact ⟨_, ps, as, _, m', hp', fun k => by simp, by simp, hm', rfl⟩
  · rintro out ⟨ps', as', m, m', hq, hm, _, he, rfl⟩
    rw [hp'] at hq
    injection hq with e1 e2
    subst e1
    have h3 := ((hspec m).2.2 m' he).1 0 (cdiv_pos (by omega) (by omega))
    have h4 := h3.isReduction false (by omega) op
    rw [Nat.zero_mul, Nat.zero_add, Nat.min_self] at h4
    rw [slice_congr (fun j _ _ => hm j)] at h4
    exact h4

theorem padded_inside (op : ROp) {i : Nat} (hi : i < size) : padded op size f i = f i := by
  unfold padded; rw [if_neg]; omega

theorem padded_tail (op : ROp) (hs' : size + 4 ≤ 2 ^ 32) {i : Nat} (hi : size ≤ i) (hi2 : i < 4 * cdiv size 4) :
    padded op size f i = if op = .or then 0 else 1 := by
  have := boolTrailing_eq hs'
  unfold padded; rw [if_pos]; omega

theorem bits01 {x : BitVec 8} (h : x = 0 ∨ x = 1) (i : Nat) : x.getLsbD i = true ↔ i = 0 ∧ x ≠ 0 := by
  rcases h with rfl | rfl
  · simp
  · have : (1 : BitVec 8).getLsbD i = (1#8).getLsbD i := rfl
    rw [this, BitVec.getLsbD_one]
    simp

theorem all_word {out : BitVec 32} (hs : 0 < size) (hs' : size + 4 ≤ 2 ^ 32) (hf : ∀ i, i < size → f i = 0 ∨ f i = 1)
    (h : IsReduction false .and (slice (words (padded .and size f)) 0 (cdiv size 4)) out) :
    ∀ c i, c < 4 → i < 8 → (out.getLsbD (8 * c + i) = true ↔ i = 0 ∧ ∀ k, k < cdiv size 4 → 4 * k + c < size → f (4 * k + c) ≠ 0) := by
  intro c i hc hi
  have hpos := cdiv_pos (a := size) (b := 4) hs (by omega)
  have hbyte : ∀ k, k < cdiv size 4 → ((words (padded .and size f) k).getLsbD (8 * c + i) = true ↔
      i = 0 ∧ (4 * k + c < size → f (4 * k + c) ≠ 0)) := by
    intro k hk
    rw [words_getLsb _ _ _ _ hc hi]
    by_cases h1 : 4 * k + c < size
    · rw [padded_inside _ h1, bits01 (hf _ h1)]
      simp [h1]
    · rw [padded_tail _ hs' (by omega) (by omega), if_neg (by decide), bits01 (Or.inr rfl)]
      simp [h1]
  rw [h _ (by omega)]
  constructor
  · intro h2
    have key : ∀ k, k < cdiv size 4 → i = 0 ∧ (4 * k + c < size → f (4 * k + c) ≠ 0) := fun k hk =>
      (hbyte k hk).1 (h2 _ (mem_slice.2 ⟨k, by omega, hk, rfl⟩))
    exact ⟨(key 0 hpos).1, fun k hk => (key k hk).2⟩
  · rintro ⟨h3, h4⟩ x hx
    obtain ⟨k, _, hk, rfl⟩ := mem_slice.1 hx
    exact (hbyte k hk).2 ⟨h3, h4 k hk⟩

theorem any_word {out : BitVec 32} (hs' : size + 4 ≤ 2 ^ 32) (hf : ∀ i, i < size → f i = 0 ∨ f i = 1)
    (h : IsReduction false .or (slice (words (padded .or size f)) 0 (cdiv size 4)) out) :
    ∀ c i, c < 4 → i < 8 → (out.getLsbD (8 * c + i) = true ↔ i = 0 ∧ ∃ k, k < cdiv size 4 ∧ 4 * k + c < size ∧ f (4 * k + c) ≠ 0) := by
  intro c i hc hi
  have hbyte : ∀ k, k < cdiv size 4 → ((words (padded .or size f) k).getLsbD (8 * c + i) = true ↔
      i = 0 ∧ 4 * k + c < size ∧ f (4 * k + c) ≠ 0) := by
    intro k hk
    rw [words_getLsb _ _ _ _ hc hi]
    by_cases h1 : 4 * k + c < size
    · rw [padded_inside _ h1, bits01 (hf _ h1)]
      simp [h1]
    · rw [padded_tail _ hs' (by omega) (by omega), if_pos rfl, bits01 (Or.inl rfl)]
      simp [h1]
  rw [h _ (by omega)]
  constructor
  · rintro ⟨x, hx, h2⟩
    obtain ⟨k, _, hk, rfl⟩ := mem_slice.1 hx
    have := (hbyte k hk).1 h2
    exact ⟨this.1, k, hk, this.2⟩
  · rintro ⟨h3, k, hk, h4⟩
    exact ⟨_, mem_slice.2 ⟨k, by omega, hk, rfl⟩, (hbyte k hk).2 ⟨h3, h4⟩⟩

theorem ne_zero_iff {n : Nat} (x : BitVec n) : x ≠ 0 ↔ ∃ i, i < n ∧ x.getLsbD i = true := by
  constructor
  · intro h
    by_contra hc
    push Not at hc
    apply h
    apply BitVec.eq_of_getLsbD_eq
    intro i hi
    have := hc i hi
    simpa using this
  · rintro ⟨i, _, h⟩ rfl
    simp at h

/-- Index as word number and byte number -/
theorem by_words (size : Nat) (P : Nat → Prop) : (∀ i, i < size → P i) ↔ ∀ c, c < 4 → ∀ k, k < cdiv size 4 → 4 * k + c < size → P (4 * k + c) := by
  have h1 := cdiv_mul_ge (a := size) (b := 4) (by omega)
  constructor
  · intro h c _ k _ h2; exact h _ h2
  · intro h i hi
    have := h (i % 4) (Nat.mod_lt _ (by omega)) (i / 4) (by omega) (by omega)
    rwa [Nat.div_add_mod] at this

/-- **C24.**  `jit_all` returns true exactly if all entries of the mask are true, whatever the bytes
behind the end of the mask contain, and for all sizes, numbers of threads and interleavings. -/
theorem C24_all (hs : 0 < size) (hs' : size + 4 ≤ 2 ^ 32) (hid : 16 ≤ ideal) (hid' : ideal < 2 ^ 31)
    (hf : ∀ i, i < size → f i = 0 ∨ f i = 1) (old : BitVec 32) :
    (∃ out, BoolOut .and workers ideal size f old out) ∧
    ∀ out, BoolOut .and workers ideal size f old out → (jitAll out = true ↔ ∀ i, i < size → f i ≠ 0) := by
  obtain ⟨h1, h2⟩ := boolOut_spec (workers := workers) (f := f) .and hs hs' hid hid' old
  refine ⟨h1, fun out ho => ?_⟩
  have hw := all_word hs hs' hf (h2 out ho)
  rw [by_words]
  unfold jitAll
  rw [bne_iff_ne, ne_zero_iff]
  simp only [BitVec.getLsbD_and, Bool.and_eq_true]
  constructor
  · rintro ⟨i, hi, ⟨⟨h4, h5⟩, h6⟩, h7⟩ c hc
    rw [byteOf_getLsb _ _ _ hi, hw _ _ (by omega) hi] at h4 h5 h6 h7
    have : c = 0 ∨ c = 1 ∨ c = 2 ∨ c = 3 := by omega
    rcases this with rfl | rfl | rfl | rfl
    · exact h4.2
    · exact h5.2
    · exact h6.2
    · exact h7.2
  · intro h
    refine ⟨0, by omega, ?_⟩
    simp only [byteOf_getLsb _ _ 0 (show 0 < 8 by omega)]
    rw [hw 0 0 (by omega) (by omega), hw 1 0 (by omega) (by omega), hw 2 0 (by omega) (by omega), hw 3 0 (by omega) (by omega)]
    exact ⟨⟨⟨⟨rfl, h 0 (by omega)⟩, rfl, h 1 (by omega)⟩, rfl, h 2 (by omega)⟩, rfl, h 3 (by omega)⟩

/-- **C24.**  `jit_any` returns true exactly if some entry of the mask is true. -/
theorem C24_any (hs : 0 < size) (hs' : size + 4 ≤ 2 ^ 32) (hid : 16 ≤ ideal) (hid' : ideal < 2 ^ 31)
    (hf : ∀ i, i < size → f i = 0 ∨ f i = 1) (old : BitVec 32) :
    (∃ out, BoolOut .or workers ideal size f old out) ∧
    ∀ out, BoolOut .or workers ideal size f old out → (jitAny out = true ↔ ∃ i, i < size ∧ f i ≠ 0) := by
  obtain ⟨h1, h2⟩ := boolOut_spec (workers := workers) (f := f) .or hs hs' hid hid' old
  refine ⟨h1, fun out ho => ?_⟩
  have hw := any_word hs' hf (h2 out ho)
  have hge := cdiv_mul_ge (a := size) (b := 4) (by omega)
  unfold jitAny
  rw [bne_iff_ne, ne_zero_iff]
  simp only [BitVec.getLsbD_or, Bool.or_eq_true]
  constructor
  · rintro ⟨i, hi, h⟩
    simp only [byteOf_getLsb _ _ i hi] at h
    rw [hw 0 i (by omega) hi, hw 1 i (by omega) hi, hw 2 i (by omega) hi, hw 3 i (by omega) hi] at h
    rcases h with ((⟨_, k, _, h1, h2⟩ | ⟨_, k, _, h1, h2⟩) | ⟨_, k, _, h1, h2⟩) | ⟨_, k, _, h1, h2⟩ <;> exact ⟨_, h1, h2⟩
  · rintro ⟨j, hj, hne⟩
    refine ⟨0, by omega, ?_⟩
    simp only [byteOf_getLsb _ _ 0 (show 0 < 8 by omega)]
    have key : ∀ c, j % 4 = c → c < 4 → out.getLsbD (8 * c + 0) = true := by
      intro c h1 h2
      rw [hw c 0 h2 (by omega)]
      refine ⟨rfl, j / 4, by omega, by omega, ?_⟩
      rw [← h1, Nat.div_add_mod]; exact hne
    have : j % 4 = 0 ∨ j % 4 = 1 ∨ j % 4 = 2 ∨ j % 4 = 3 := by omega
    rcases this with h | h | h | h
    · exact Or.inl (Or.inl (Or.inl (key 0 h (by omega))))
    · exact Or.inl (Or.inl (Or.inr (key 1 h (by omega))))
    · exact Or.inl (Or.inr (key 2 h (by omega)))
    · exact Or.inr (key 3 h (by omega))

end

/-! ### Asynchronous variants -/

theorem async_spec (op : ROp) {workers ideal : Nat} (hid : 16 ≤ ideal) (hid' : ideal < 2 ^ 31) (out : BitVec 32) :
    (∃ res, AsyncOut op workers ideal out res) ∧
    ∀ res, AsyncOut op workers ideal out res → IsReduction false op [byteOf out 0, byteOf out 1, byteOf out 2, byteOf out 3] res := by
  have hs : SizesOk ideal 4 4 := ⟨by omega, by omega, by omega, by omega, hid'⟩
  obtain ⟨g, hgeo, hg, hcase⟩ := geometry_ok (workers := workers) hs
  have h1 : g.chunks_per_block = 1 := by rcases hcase with h | h; exact h; omega
  have hcc : g.chunk_count = 1 := by rw [hg.cc, h1]; decide
  have hp : blockReduce (intRed false 8 op) 1 workers ideal 4 4 1 1 2 = .ok [(g.work_units, redTask (intRed false 8 op) g 4 4 1 1)] [] := by
    rw [blockReduce, if_neg (by omega), if_neg (by omega), if_neg (by omega), hgeo, Option.elim_some, if_neg (by omega)]
  constructor
  · obtain ⟨m', hm'⟩ := ends_exists [(g.work_units, redTask (intRed false 8 op) g 4 4 1 1)] (fun l => byteOf out l.2)
    exact ⟨_, _, _, _, m', hp, fun _ _ => rfl, hm', rfl⟩
  · rintro res ⟨ps, as, m, m', hq, hm, he, rfl⟩
    rw [hp] at hq
    injection hq with e1 e2
    subst e1
    obtain ⟨m1, he, rfl⟩ := he
    obtain ⟨h2, _⟩ := redTask_spec (intRed false 8 op) (by omega) (by omega) hg (Or.inr (by omega)) m _ he
    have h3 := (h2 0 (by omega)).isReduction false (by omega) op
    have h4 := chunks_block (by omega) (by omega) hg (fun j => m (1, j)) (b := 0) (by decide)
    rw [h1] at h4
    simp only [List.range_one, List.map_cons, List.map_nil, Nat.zero_mul, Nat.zero_add, List.flatten_cons, List.flatten_nil, List.append_nil] at h4
    rw [h4] at h3
    unfold blockOf at h3
    rw [show slice (fun j => m (1, j)) (0 * 4) (min (0 * 4 + 4) 4) = [byteOf out 0, byteOf out 1, byteOf out 2, byteOf out 3] by
      simp [slice, List.range_succ, hm]] at h3
    exact h3

/-- **C24.**  The asynchronous variants store one byte: 1 if all entries are true, and 0 otherwise. -/
theorem C24_all_async {workers ideal size : Nat} {f : Nat → BitVec 8} (hs : 0 < size) (hs' : size + 4 ≤ 2 ^ 32) (hid : 16 ≤ ideal) (hid' : ideal < 2 ^ 31)
    (hf : ∀ i, i < size → f i = 0 ∨ f i = 1) (old out : BitVec 32) (ho : BoolOut .and workers ideal size f old out)
    (res : BitVec 8) (hr : AsyncOut .and workers ideal out res) :
    (res = 0 ∨ res = 1) ∧ (res = 1 ↔ ∀ i, i < size → f i ≠ 0) := by
  have hw := all_word hs hs' hf ((boolOut_spec (workers := workers) (f := f) .and hs hs' hid hid' old).2 out ho)
  have h := (async_spec .and hid hid' out).2 res hr
  have hbit : ∀ i, i < 8 → (res.getLsbD i = true ↔ i = 0 ∧ ∀ j, j < size → f j ≠ 0) := by
    intro i hi
    rw [h i hi, by_words]
    simp only [List.forall_mem_cons, List.not_mem_nil, false_implies, implies_true, and_true, byteOf_getLsb _ _ i hi]
    rw [hw 0 i (by omega) hi, hw 1 i (by omega) hi, hw 2 i (by omega) hi, hw 3 i (by omega) hi]
    constructor
    · rintro ⟨⟨a, h0⟩, ⟨_, h1⟩, ⟨_, h2⟩, ⟨_, h3⟩⟩
      refine ⟨a, fun c hc => ?_⟩
      have : c = 0 ∨ c = 1 ∨ c = 2 ∨ c = 3 := by omega
      rcases this with rfl | rfl | rfl | rfl
      · exact h0
      · exact h1
      · exact h2
      · exact h3
    · rintro ⟨a, b⟩
      exact ⟨⟨a, b 0 (by omega)⟩, ⟨a, b 1 (by omega)⟩, ⟨a, b 2 (by omega)⟩, ⟨a, b 3 (by omega)⟩⟩
  by_cases hall : ∀ j, j < size → f j ≠ 0
  · have : res = 1 := by
      apply BitVec.eq_of_getLsbD_eq
      intro i hi
      rw [Bool.eq_iff_iff, hbit i hi, bits01 (Or.inr rfl)]
      exact ⟨fun h => ⟨h.1, by decide⟩, fun h => ⟨h.1, hall⟩⟩
    exact ⟨Or.inr this, fun _ => hall, fun _ => this⟩
  · have : res = 0 := by
      apply BitVec.eq_of_getLsbD_eq
      intro i hi
      rw [Bool.eq_iff_iff, hbit i hi, bits01 (Or.inl rfl)]
      exact ⟨fun h => absurd h.2 hall, fun h => absurd rfl h.2⟩
    refine ⟨Or.inl this, fun h => ?_, fun h => absurd h hall⟩
    rw [this] at h; exact absurd h (by decide)

@[inherit_doc C24_all_async]
theorem C24_any_async {workers ideal size : Nat} {f : Nat → BitVec 8} (hs : 0 < size) (hs' : size + 4 ≤ 2 ^ 32) (hid : 16 ≤ ideal) (hid' : ideal < 2 ^ 31)
    (hf : ∀ i, i < size → f i = 0 ∨ f i = 1) (old out : BitVec 32) (ho : BoolOut .or workers ideal size f old out)
    (res : BitVec 8) (hr : AsyncOut .or workers ideal out res) :
    (res = 0 ∨ res = 1) ∧ (res = 1 ↔ ∃ i, i < size ∧ f i ≠ 0) := by
  have hw := any_word hs' hf ((boolOut_spec (workers := workers) (f := f) .or hs hs' hid hid' old).2 out ho)
  have h := (async_spec .or hid hid' out).2 res hr
  have hge := cdiv_mul_ge (a := size) (b := 4) (by omega)
  have hbit : ∀ i, i < 8 → (res.getLsbD i = true ↔ i = 0 ∧ ∃ j, j < size ∧ f j ≠ 0) := by
    intro i hi
    rw [h i hi]
    simp only [List.mem_cons, List.not_mem_nil, or_false, exists_eq_or_imp, exists_eq_left, byteOf_getLsb _ _ i hi]
    rw [hw 0 i (by omega) hi, hw 1 i (by omega) hi, hw 2 i (by omega) hi, hw 3 i (by omega) hi]
    constructor
    · rintro (⟨a, k, _, h1, h2⟩ | ⟨a, k, _, h1, h2⟩ | ⟨a, k, _, h1, h2⟩ | ⟨a, k, _, h1, h2⟩) <;> exact ⟨a, _, h1, h2⟩
    · rintro ⟨a, j, hj, hne⟩
      have hk : j / 4 < cdiv size 4 := by omega
      have e := Nat.div_add_mod j 4
      have : j % 4 = 0 ∨ j % 4 = 1 ∨ j % 4 = 2 ∨ j % 4 = 3 := by omega
      rcases this with h | h | h | h <;> rw [h] at e
      · exact Or.inl ⟨a, j / 4, hk, by omega, by rw [e]; exact hne⟩
      · exact Or.inr (Or.inl ⟨a, j / 4, hk, by omega, by rw [e]; exact hne⟩)
      · exact Or.inr (Or.inr (Or.inl ⟨a, j / 4, hk, by omega, by rw [e]; exact hne⟩))
      · exact Or.inr (Or.inr (Or.inr ⟨a, j / 4, hk, by omega, by rw [e]; exact hne⟩))
  by_cases hall : ∃ j, j < size ∧ f j ≠ 0
  · have : res = 1 := by
      apply BitVec.eq_of_getLsbD_eq
      intro i hi
      rw [Bool.eq_iff_iff, hbit i hi, bits01 (Or.inr rfl)]
      exact ⟨fun h => ⟨h.1, by decide⟩, fun h => ⟨h.1, hall⟩⟩
    exact ⟨Or.inr this, fun _ => hall, fun _ => this⟩
  · have : res = 0 := by
      apply BitVec.eq_of_getLsbD_eq
      intro i hi
      rw [Bool.eq_iff_iff, hbit i hi, bits01 (Or.inl rfl)]
      exact ⟨fun h => absurd h.2 hall, fun h => absurd rfl h.2⟩
    refine ⟨Or.inl this, fun h => ?_, fun h => absurd h hall⟩
    rw [this] at h; exact absurd h (by decide)

/-- **C24.**  Only padding bytes are written: those behind the mask in its last word. -/
theorem C24_padding (op : ROp) {size : Nat} (hs' : size + 4 ≤ 2 ^ 32) (f : Nat → BitVec 8) (i : Nat)
    (h : padded op size f i ≠ f i) : size ≤ i ∧ i < size + 3 ∧ i / 4 = (size - 1) / 4 := by
  have h1 := cdiv_mul_ge (a := size) (b := 4) (by omega)
  have h2 := cdiv_mul_lt (a := size) (b := 4) (by omega)
  have := boolTrailing_eq hs'
  unfold padded at h
  split at h
  · omega
  · exact absurd rfl h

/-- **C24 fails** for empty masks, for which `jit_all` should be true and `jit_any` false: nothing is
computed, and the result depends on the previous contents of an uninitialized variable. -/
theorem C24_empty (workers ideal : Nat) (f : Nat → BitVec 8) (old : BitVec 32) (op : ROp) :
    (∃ out, BoolOut op workers ideal 0 f old out) ∧ ∀ out, BoolOut op workers ideal 0 f old out → out = old := by
  have hp : boolPlan op workers ideal 0 0 1 2 = .ok [] [] := by
    unfold boolPlan
    rw [show boolWords 0 = 0 by decide, blockReduce, if_pos rfl]
  constructor
  · exact ⟨old, [], [], fun l => if l.1 = 0 then words (padded op 0 f) l.2 else old, _, hp, fun k => by simp, by simp, rfl, by simp⟩
  · rintro out ⟨ps, as, m, m', hq, _, ho, he, rfl⟩
    rw [hp] at hq
    injection hq with e1 e2
    subst e1
    have he' : m' = m := he
    rw [he', ho]

theorem C24_empty_wrong (workers ideal : Nat) (f : Nat → BitVec 8) :
    (∃ old out, BoolOut .and workers ideal 0 f old out ∧ jitAll out = false) ∧
    (∃ old out, BoolOut .or workers ideal 0 f old out ∧ jitAny out = true) := by
  constructor
  · obtain ⟨⟨out, h1⟩, h2⟩ := C24_empty workers ideal f 0 .and
    exact ⟨0, out, h1, by rw [h2 out h1]; decide⟩
  · obtain ⟨⟨out, h1⟩, h2⟩ := C24_empty workers ideal f 1 .or
    exact ⟨1, out, h1, by rw [h2 out h1]; decide⟩

/-- The hypotheses can be met: a mask of 70001 entries with one false entry -/
example : ∃ out, BoolOut .and 8 16384 70001 (fun i => if i = 69999 then 0 else 1) 0 out ∧ jitAll out = false := by
  obtain ⟨⟨out, h1⟩, h2⟩ := C24_all (workers := 8) (ideal := 16384) (size := 70001) (f := fun i => if i = 69999 then 0 else 1)
    (by omega) (by omega) (by omega) (by omega) (fun i _ => by split; exact Or.inl rfl; exact Or.inr rfl) 0
  refine ⟨out, h1, ?_⟩
  by_contra hc
  have := (h2 out h1).1 (by simpa using hc) 69999 (by omega)
  simp at this

end Verif.Llvm
