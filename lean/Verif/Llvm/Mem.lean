import Verif.Llvm.Split

/-!
# C50: `memset_async`, `memcpy_async`, `poke`, `aggregate`

`/repo/src/llvm_ts.cpp:203-262, 463-476, 935-945, 956-999`.  Memory is a map from addresses to bytes.
-/
namespace Verif.Llvm.Mem

open Verif.Par

/-- Memory, byte by byte -/
abbrev Byte := BitVec 8

/-! ### Model -/

/-- Write the bytes `f 0 .. f (n-1)` at address `p` -/
def putBytes (p n : Nat) (f : Nat → Byte) : Prog Nat Byte Unit := forLt 0 n fun k => Prog.put (p + k) (f k)

/-- Read `n` bytes at address `p` -/
def getBytes (p n : Nat) : Prog Nat Byte (Nat → Byte) :=
  Prog.loop n (fun _ => 0) fun k f => (Prog.get (p + k)).bind fun x => .pure (fun j => if j = k then x else f j)

/-- The function run by `memset_async` (llvm_ts.cpp:229-258).  (`size` has less than 32 bits in the
cases with a loop.) -/
def memsetTask (p size isize : Nat) (src : Nat → Byte) : Prog Nat Byte Unit :=
  if isize = 1 then putBytes p size (fun _ => src 0)
  else if isize = 2 ∨ isize = 4 ∨ isize = 8 then forLt 0 size fun i => putBytes (p + i * isize) isize src
  else .pure ()

/-- `LLVMThreadState::memset_async` (llvm_ts.cpp:203-262): `none` if an exception is raised, else the
submissions to the thread pool -/
def memset (p size isize : Nat) (src : Nat → Byte) : Option (List (Phase Nat Byte)) :=
  if isize ≠ 1 ∧ isize ≠ 2 ∧ isize ≠ 4 ∧ isize ≠ 8 then none
  else if size = 0 then some []
  else if ∀ k, k < isize → src k = 0 then some [(1, fun _ => memsetTask p (size * isize) 1 src)]
  else some [(1, fun _ => memsetTask p size isize src)]

/-- `LLVMThreadState::memcpy_async` (llvm_ts.cpp:935-945).  (`std::memcpy`: any order of the accesses is
equivalent as the regions must not overlap) -/
def memcpy (dst src size : Nat) : Phase Nat Byte :=
  (1, fun _ => (getBytes src size).bind fun f => putBytes dst size f)

/-- `LLVMThreadState::poke` (llvm_ts.cpp:463-476); the source is read by the caller -/
def poke (dst size : Nat) (src : Nat → Byte) : Phase Nat Byte := (1, fun _ => putBytes dst size src)

/-- `AggregationEntry` (jit.h:2435-2443); `src` is the pointer as a number -/
structure Entry where
  size : Int
  offset : Nat
  src : Nat

/-- Byte `k` of a number (little endian) -/
def byteOf (v k : Nat) : Byte := BitVec.ofNat 8 (v / 2 ^ (8 * k))

/-- Processing of an entry (llvm_ts.cpp:974-990) -/
def aggStep (dst : Nat) (e : Entry) : Prog Nat Byte Unit :=
  if e.size = 1 then putBytes (dst + e.offset) 1 (byteOf e.src)
  else if e.size = 2 then putBytes (dst + e.offset) 2 (byteOf e.src)
  else if e.size = 4 then putBytes (dst + e.offset) 4 (byteOf e.src)
  else if e.size = 8 then putBytes (dst + e.offset) 8 (byteOf e.src)
  else if e.size = -1 then (getBytes e.src 1).bind fun f => putBytes (dst + e.offset) 1 f
  else if e.size = -2 then (getBytes e.src 2).bind fun f => putBytes (dst + e.offset) 2 f
  else if e.size = -4 then (getBytes e.src 4).bind fun f => putBytes (dst + e.offset) 4 f
  else if e.size = -8 then (getBytes e.src 8).bind fun f => putBytes (dst + e.offset) 8 f
  else .pure ()

/-- `LLVMThreadState::aggregate` (llvm_ts.cpp:956-999).  The array of entries is a function; it must not
be changed until the operation has completed. -/
def aggregate (workers ideal dst size : Nat) (agg : Nat → Entry) : Phase Nat Byte :=
  ((poolSplit workers ideal size).2, fun index =>
    forNe (splitRange (poolSplit workers ideal size).1 size index).1 (splitRange (poolSplit workers ideal size).1 size index).2
      fun i => aggStep dst (agg i))

/-! ### Single tasks -/

section
variable {R W : Set Nat} {m : Nat → Byte}

theorem putBytes_wp {p n : Nat} {f : Nat → Byte} (hW : ∀ k, k < n → p + k ∈ W) :
    wp R W (putBytes p n f) m (fun _ m' => (∀ k, k < n → m' (p + k) = f k) ∧ ∀ l, ¬ (p ≤ l ∧ l < p + n) → m' l = m l) := by
  unfold putBytes forLt
  refine wp_loop (fun c _ m' => (∀ k, k < c → m' (p + k) = f k) ∧ ∀ l, ¬ (p ≤ l ∧ l < p + c) → m' l = m l) ?_ ?_
  · exact ⟨fun k hk => absurd hk (Nat.not_lt_zero _), fun _ _ => rfl⟩
  · rintro c _ m1 hc ⟨h1, h2⟩
    refine wp_put (hW _ (by omega)) ⟨fun k hk => ?_, fun l hl => ?_⟩
    · unfold upd
      by_cases e : k = c
      · subst e; rw [if_pos (by omega)]; congr 1; omega
      · rw [if_neg (by omega)]; exact h1 k (by omega)
    · unfold upd
      rw [if_neg (by omega)]
      exact h2 l (by omega)

theorem getBytes_wp {p n : Nat} (hR : ∀ k, k < n → p + k ∈ R) :
    wp R W (getBytes p n) m (fun f m' => m' = m ∧ ∀ k, k < n → f k = m (p + k)) := by
  unfold getBytes
  refine wp_loop (fun c (f : Nat → Byte) m' => m' = m ∧ ∀ k, k < c → f k = m (p + k)) ?_ ?_
  · exact ⟨rfl, fun k hk => absurd hk (Nat.not_lt_zero _)⟩
  · rintro c f m1 hc ⟨rfl, h2⟩
    rw [wp_bind]
    refine wp_get (hR c hc) ⟨rfl, fun k hk => ?_⟩
    show (if k = c then m1 (p + c) else f k) = _
    by_cases e : k = c
    · rw [if_pos e, e]
    · rw [if_neg e]; exact h2 k (by omega)

theorem memsetTask_wp {p size isize : Nat} {src : Nat → Byte} (hi : isize = 1 ∨ isize = 2 ∨ isize = 4 ∨ isize = 8) :
    wp ∅ {l | p ≤ l ∧ l < p + size * isize} (memsetTask p size isize src) m
      (fun _ m' => (∀ k, k < size * isize → m' (p + k) = src (k % isize)) ∧ ∀ l, ¬ (p ≤ l ∧ l < p + size * isize) → m' l = m l) := by
  unfold memsetTask
  by_cases h1 : isize = 1
  · rw [if_pos h1]
    subst h1
    simp only [Nat.mul_one, Nat.mod_one]
    exact putBytes_wp (fun k hk => ⟨by omega, by omega⟩)
  · rw [if_neg h1, if_pos (by omega)]
    unfold forLt
    refine wp_loop (fun c _ m' => (∀ k, k < c * isize → m' (p + k) = src (k % isize)) ∧ ∀ l, ¬ (p ≤ l ∧ l < p + c * isize) → m' l = m l) ?_ ?_
    · exact ⟨fun k hk => by omega, fun _ _ => rfl⟩
    · rintro c _ m1 hc ⟨h2, h3⟩
      have hle : (c + 1) * isize ≤ size * isize := Nat.mul_le_mul_right _ hc
      rw [Nat.add_mul, Nat.one_mul] at hle
      rw [Nat.zero_add]
      refine wp_mono (putBytes_wp (fun k hk => ⟨by omega, by omega⟩)) ?_
      rintro _ m2 ⟨h4, h5⟩
      have e : (c + 1) * isize = c * isize + isize := by rw [Nat.add_mul, Nat.one_mul]
      refine ⟨fun k hk => ?_, fun l hl => ?_⟩
      · rw [e] at hk
        by_cases hc : k < c * isize
        · rw [h5 _ (by omega)]; exact h2 k hc
        · have := h4 (k - c * isize) (by omega)
          rw [show p + c * isize + (k - c * isize) = p + k by omega] at this
          rw [this]
          congr 1
          have hk2 : k = (k - c * isize) + c * isize := by omega
          generalize k - c * isize = j at *
          rw [hk2, Nat.add_mul_mod_self_right, Nat.mod_eq_of_lt (by omega)]
      · rw [e] at hl
        rw [h5 _ (by omega), h3 _ (by omega)]

end

/-- One task: the rule for a submission with a single task -/
theorem single {p : Prog Nat Byte Unit} {R W : Set Nat} {Q : (Nat → Byte) → (Nat → Byte) → Prop} {m : Nat → Byte}
    (h : wp R W p m (fun _ m' => Q m m')) {ok : Bool → Nat → Prop} (hR : ∀ l, l ∈ R → ok false l) (hW : ∀ l, l ∈ W → ok true l)
    (hQ : ∀ m1 m2 : Nat → Byte, (∀ l, l ∈ W → m2 l = m1 l) → (∀ l, l ∉ W → m2 l = m l) → (∀ l, l ∉ W → m1 l = m l) → Q m m1 → Q m m2) :
    Safe ok [(1, fun _ => p)] m ∧ ∀ m', Ends [(1, fun _ => p)] m m' → Q m m' := by
  have hd : ∀ i j, i < 1 → j < 1 → i ≠ j → ∀ l, l ∈ W → l ∉ R ∧ l ∉ W := fun i j hi hj hij => absurd (by omega : i = j) hij
  constructor
  · exact ⟨phase_safe (R := fun _ => R) (W := fun _ => W) (Q := fun _ m' => Q m m') hd (fun _ _ => h) (fun _ _ => hR) (fun _ _ => hW), fun _ _ => trivial⟩
  · rintro m' ⟨m1, h1, h2⟩
    have h2 : m' = m1 := h2
    subst h2
    obtain ⟨h3, h4⟩ := phase_spec (R := fun _ => R) (W := fun _ => W) (Q := fun _ m' => Q m m') hd (fun _ _ => h) h1
    obtain ⟨mi, h5, h6, h7⟩ := h3 0 (by omega)
    exact hQ mi m' h6 (fun l hl => h4 l (fun _ _ => hl)) h7 h5

theorem eq_of_single {m1 m2 m : Nat → Byte} {W : Set Nat} (h1 : ∀ l, l ∈ W → m2 l = m1 l) (h2 : ∀ l, l ∉ W → m2 l = m l)
    (h3 : ∀ l, l ∉ W → m1 l = m l) : m2 = m1 := funext fun l => by
  by_cases h : l ∈ W
  · exact h1 l h
  · rw [h2 l h, h3 l h]

/-! ### Properties -/

/-- **C50.**  `jit_memset_async` raises exactly for element sizes other than 1, 2, 4, 8. -/
theorem C50_memset_raises (p size isize : Nat) (src : Nat → Byte) :
    memset p size isize src = none ↔ ¬ (isize = 1 ∨ isize = 2 ∨ isize = 4 ∨ isize = 8) := by
  unfold memset
  by_cases h : isize ≠ 1 ∧ isize ≠ 2 ∧ isize ≠ 4 ∧ isize ≠ 8
  · rw [if_pos h]; exact ⟨fun _ => by omega, fun _ => rfl⟩
  · rw [if_neg h]
    constructor
    · intro h2; exfalso; revert h2; split_ifs <;> simp
    · intro h2; exact absurd (by omega) h

/-- **C50.**  `jit_memset_async`: the `size * isize` bytes at `p` are the repeated pattern, nothing else
is accessed. -/
theorem C50_memset (p size isize : Nat) (src : Nat → Byte) (ps : List (Phase Nat Byte)) (h : memset p size isize src = some ps) (m : Nat → Byte) :
    Safe (fun w l => w = true ∧ p ≤ l ∧ l < p + size * isize) ps m ∧ (∃ m', Ends ps m m') ∧
    ∀ m', Ends ps m m' → (∀ k, k < size * isize → m' (p + k) = src (k % isize)) ∧ ∀ l, ¬ (p ≤ l ∧ l < p + size * isize) → m' l = m l := by
  have hi : isize = 1 ∨ isize = 2 ∨ isize = 4 ∨ isize = 8 := by
    by_contra hc
    rw [(C50_memset_raises p size isize src).2 hc] at h
    cases h
  unfold memset at h
  rw [if_neg (by omega)] at h
  suffices hs : Safe (fun w l => w = true ∧ p ≤ l ∧ l < p + size * isize) ps m ∧
      ∀ m', Ends ps m m' → (∀ k, k < size * isize → m' (p + k) = src (k % isize)) ∧ ∀ l, ¬ (p ≤ l ∧ l < p + size * isize) → m' l = m l from
    ⟨hs.1, ends_exists ps m, hs.2⟩
  by_cases h0 : size = 0
  · rw [if_pos h0] at h
    cases h
    refine ⟨trivial, fun m' hm => ?_⟩
    have hm : m' = m := hm
    rw [h0, hm]
    exact ⟨fun k hk => by omega, fun _ _ => rfl⟩
  · rw [if_neg h0] at h
    by_cases hz : ∀ k, k < isize → src k = 0
    · rw [if_pos hz] at h
      cases h
      have hw := memsetTask_wp (m := m) (p := p) (size := size * isize) (src := src) (isize := 1) (by omega)
      rw [Nat.mul_one] at hw
      refine single (Q := fun m m' => (∀ k, k < size * isize → m' (p + k) = src (k % isize)) ∧ ∀ l, ¬ (p ≤ l ∧ l < p + size * isize) → m' l = m l)
        (wp_mono hw ?_) (fun l hl => absurd hl (Set.notMem_empty l)) (fun l hl => ⟨rfl, hl⟩) ?_
      · rintro _ m' ⟨h1, h2⟩
        refine ⟨fun k hk => ?_, h2⟩
        rw [h1 k hk, hz _ (Nat.mod_lt _ (by omega)), hz _ (by omega)]
      · intro m1 m2 h1 h2 h3 hq
        rw [eq_of_single h1 h2 h3]
        exact hq
    · rw [if_neg hz] at h
      cases h
      refine single (Q := fun m m' => (∀ k, k < size * isize → m' (p + k) = src (k % isize)) ∧ ∀ l, ¬ (p ≤ l ∧ l < p + size * isize) → m' l = m l)
        (memsetTask_wp hi) (fun l hl => absurd hl (Set.notMem_empty l)) (fun l hl => ⟨rfl, hl⟩) ?_
      intro m1 m2 h1 h2 h3 hq
      rw [eq_of_single h1 h2 h3]
      exact hq

/-- A pattern of two bytes: the hypothesis can be met. -/
example : ∃ ps, memset 100 5 2 (fun k => if k = 0 then 1 else 2) = some ps ∧
    ∀ m m', Ends ps m m' → m' 106 = 1 ∧ m' 107 = 2 ∧ m' 110 = m 110 := by
  have h : memset 100 5 2 (fun k => if k = 0 then 1 else 2) = some [(1, fun _ => memsetTask 100 5 2 (fun k => if k = 0 then 1 else 2))] := by
    unfold memset
    rw [if_neg (by omega), if_neg (by omega), if_neg]
    intro hc
    have := hc 0 (by omega)
    simp at this
  refine ⟨_, h, fun m m' hm => ?_⟩
  obtain ⟨h1, h2⟩ := (C50_memset _ _ _ _ _ h m).2.2 m' hm
  exact ⟨by simpa using h1 6 (by omega), by simpa using h1 7 (by omega), h2 110 (by omega)⟩

/-- **C50.**  `jit_memcpy_async` for regions that do not overlap -/
theorem C50_memcpy (dst src size : Nat) (hd : dst + size ≤ src ∨ src + size ≤ dst) (m : Nat → Byte) :
    Safe (fun w l => if w then dst ≤ l ∧ l < dst + size else src ≤ l ∧ l < src + size) [memcpy dst src size] m ∧
    (∃ m', Ends [memcpy dst src size] m m') ∧
    ∀ m', Ends [memcpy dst src size] m m' → (∀ k, k < size → m' (dst + k) = m (src + k)) ∧ ∀ l, ¬ (dst ≤ l ∧ l < dst + size) → m' l = m l := by
  suffices hs : Safe (fun w l => if w then dst ≤ l ∧ l < dst + size else src ≤ l ∧ l < src + size) [memcpy dst src size] m ∧
      ∀ m', Ends [memcpy dst src size] m m' → (∀ k, k < size → m' (dst + k) = m (src + k)) ∧ ∀ l, ¬ (dst ≤ l ∧ l < dst + size) → m' l = m l from
    ⟨hs.1, ends_exists _ m, hs.2⟩
  refine single (R := {l | src ≤ l ∧ l < src + size}) (W := {l | dst ≤ l ∧ l < dst + size})
    (Q := fun m m' => (∀ k, k < size → m' (dst + k) = m (src + k)) ∧ ∀ l, ¬ (dst ≤ l ∧ l < dst + size) → m' l = m l) ?_ (fun l hl => hl) (fun l hl => hl) ?_
  · rw [wp_bind]
    refine wp_mono (getBytes_wp (fun k hk => ⟨by omega, by omega⟩)) ?_
    rintro f m1 ⟨rfl, h1⟩
    refine wp_mono (putBytes_wp (fun k hk => ⟨by omega, by omega⟩)) ?_
    rintro _ m2 ⟨h2, h3⟩
    exact ⟨fun k hk => by rw [h2 k hk, h1 k hk], h3⟩
  · intro m1 m2 h1 h2 h3 hq
    rw [eq_of_single h1 h2 h3]
    exact hq

example : ∀ m m', Ends [memcpy 0 100 3] m m' → m' 2 = m 102 := fun m m' h => ((C50_memcpy 0 100 3 (by omega) m).2.2 m' h).1 2 (by omega)

/-- **C50.**  `jit_poke` -/
theorem C50_poke (dst size : Nat) (src : Nat → Byte) (m : Nat → Byte) :
    Safe (fun w l => w = true ∧ dst ≤ l ∧ l < dst + size) [poke dst size src] m ∧ (∃ m', Ends [poke dst size src] m m') ∧
    ∀ m', Ends [poke dst size src] m m' → (∀ k, k < size → m' (dst + k) = src k) ∧ ∀ l, ¬ (dst ≤ l ∧ l < dst + size) → m' l = m l := by
  suffices hs : Safe (fun w l => w = true ∧ dst ≤ l ∧ l < dst + size) [poke dst size src] m ∧
    ∀ m', Ends [poke dst size src] m m' → (∀ k, k < size → m' (dst + k) = src k) ∧ ∀ l, ¬ (dst ≤ l ∧ l < dst + size) → m' l = m l from
    ⟨hs.1, ends_exists _ m, hs.2⟩
  refine single (R := ∅) (W := {l | dst ≤ l ∧ l < dst + size})
    (Q := fun m m' => (∀ k, k < size → m' (dst + k) = src k) ∧ ∀ l, ¬ (dst ≤ l ∧ l < dst + size) → m' l = m l)
    (putBytes_wp (fun k hk => ⟨by omega, by omega⟩)) (fun l hl => absurd hl (Set.notMem_empty l)) (fun l hl => ⟨rfl, hl⟩) ?_
  intro m1 m2 h1 h2 h3 hq
  rw [eq_of_single h1 h2 h3]
  exact hq

/-! #### Aggregation -/

/-- Number of bytes of an entry -/
def Entry.bytes (e : Entry) : Nat := e.size.natAbs

/-- Bytes written by an entry -/
def Entry.target (dst : Nat) (e : Entry) : Set Nat := {l | dst + e.offset ≤ l ∧ l < dst + e.offset + e.bytes}

/-- Bytes read by an entry: `size` bytes behind the pointer, if `size` is negative -/
def Entry.source (e : Entry) : Set Nat := {l | e.size < 0 ∧ e.src ≤ l ∧ l < e.src + e.bytes}

/-- Valid sizes (jit.h:2437) -/
def Entry.Valid (e : Entry) : Prop := e.bytes = 1 ∨ e.bytes = 2 ∨ e.bytes = 4 ∨ e.bytes = 8

/-- Byte `k` of what an entry contributes -/
def Entry.byte (e : Entry) (m : Nat → Byte) (k : Nat) : Byte :=
  if e.size < 0 then m (e.src + k) else BitVec.ofNat 8 (e.src / 2 ^ (8 * k))

theorem aggStep_wp {dst : Nat} {e : Entry} (h : e.Valid) {m : Nat → Byte} :
    wp e.source (e.target dst) (aggStep dst e) m (fun _ m' => ∀ k, k < e.bytes → m' (dst + e.offset + k) = e.byte m k) := by
  have key : ∀ n : Nat, e.size = n → aggStep dst e = putBytes (dst + e.offset) n (byteOf e.src) →
      wp e.source (e.target dst) (aggStep dst e) m (fun _ m' => ∀ k, k < e.bytes → m' (dst + e.offset + k) = e.byte m k) := by
    intro n hn hp
    rw [hp]
    have hb : e.bytes = n := by unfold Entry.bytes; omega
    refine wp_mono (putBytes_wp (fun k hk => ⟨by omega, by omega⟩)) ?_
    rintro _ m' ⟨h1, _⟩ k hk
    rw [h1 k (by omega)]
    unfold Entry.byte
    rw [if_neg (by omega)]
    rfl
  have key' : ∀ n : Nat, 0 < n → e.size = -n → aggStep dst e = ((getBytes e.src n).bind fun f => putBytes (dst + e.offset) n f) →
      wp e.source (e.target dst) (aggStep dst e) m (fun _ m' => ∀ k, k < e.bytes → m' (dst + e.offset + k) = e.byte m k) := by
    intro n hn0 hn hp
    rw [hp]
    have hb : e.bytes = n := by unfold Entry.bytes; omega
    rw [wp_bind]
    refine wp_mono (getBytes_wp (fun k hk => ⟨by omega, by omega, by omega⟩)) ?_
    rintro f m1 ⟨rfl, h0⟩
    refine wp_mono (putBytes_wp (fun k hk => ⟨by omega, by omega⟩)) ?_
    rintro _ m' ⟨h1, _⟩ k hk
    rw [h1 k (by omega), h0 k (by omega)]
    unfold Entry.byte
    rw [if_pos (by omega)]
  unfold Entry.Valid Entry.bytes at h
  have hc : e.size = 1 ∨ e.size = 2 ∨ e.size = 4 ∨ e.size = 8 ∨ e.size = -1 ∨ e.size = -2 ∨ e.size = -4 ∨ e.size = -8 := by omega
  rcases hc with hc | hc | hc | hc | hc | hc | hc | hc
  · exact key 1 hc (by unfold aggStep; simp [hc])
  · exact key 2 hc (by unfold aggStep; simp [hc])
  · exact key 4 hc (by unfold aggStep; simp [hc])
  · exact key 8 hc (by unfold aggStep; simp [hc])
  · exact key' 1 (by omega) hc (by unfold aggStep; simp [hc])
  · exact key' 2 (by omega) hc (by unfold aggStep; simp [hc])
  · exact key' 4 (by omega) hc (by unfold aggStep; simp [hc])
  · exact key' 8 (by omega) hc (by unfold aggStep; simp [hc])

/-- **C50.**  `jit_aggregate`: if the targets of the entries are disjoint, and disjoint from the sources,
then every entry is written to its place, nothing else is changed, and only sources are read. -/
theorem C50_aggregate (workers ideal dst size : Nat) (agg : Nat → Entry) (hid : 0 < ideal) (hsum : size + ideal ≤ 2 ^ 32)
    (hv : ∀ i, i < size → (agg i).Valid)
    (hd : ∀ i j, i < size → j < size → i ≠ j → ∀ l, l ∈ (agg i).target dst → l ∉ (agg j).target dst)
    (hs : ∀ i j, i < size → j < size → ∀ l, l ∈ (agg i).target dst → l ∉ (agg j).source) (m : Nat → Byte) :
    Safe (fun w l => ∃ i, i < size ∧ if w then l ∈ (agg i).target dst else l ∈ (agg i).source) [aggregate workers ideal dst size agg] m ∧
    (∃ m', Ends [aggregate workers ideal dst size agg] m m') ∧
    ∀ m', Ends [aggregate workers ideal dst size agg] m m' →
      (∀ i k, i < size → k < (agg i).bytes → m' (dst + (agg i).offset + k) = (agg i).byte m k) ∧
      ∀ l, (∀ i, i < size → l ∉ (agg i).target dst) → m' l = m l := by
  have hit : Items size (fun i => (agg i).source) (fun i => (agg i).target dst)
      (fun i m' => ∀ k, k < (agg i).bytes → m' (dst + (agg i).offset + k) = (agg i).byte m k) m (fun i => aggStep dst (agg i)) := by
    refine ⟨fun i j hi hj hij l hl => ⟨hs i j hi hj l hl, hd i j hi hj hij l hl⟩, fun i m1 m2 _ h1 h2 k hk => ?_, fun i m1 hi h1 => ?_⟩
    · rw [h1 _ ⟨by omega, by omega⟩]; exact h2 k hk
    · refine wp_mono (aggStep_wp (hv i hi)) ?_
      intro _ m2 h2 k hk
      rw [h2 k hk]
      unfold Entry.byte
      split
      · rename_i hneg
        exact h1 _ (Or.inl ⟨hneg, by omega, by omega⟩)
      · rfl
  have hspl : ∃ nt lo hi, Split size nt lo hi ∧ tasks (aggregate workers ideal dst size agg).1 (aggregate workers ideal dst size agg).2 =
      tasks nt (fun t => forLt (lo t) (hi t) fun i => aggStep dst (agg i)) := by
    rcases Nat.eq_zero_or_pos size with h0 | h0
    · subst h0
      refine ⟨(poolSplit workers ideal 0).2, fun _ => 0, fun _ => 0, ⟨fun _ _ => by omega, fun _ _ _ _ _ i _ h => by omega, fun _ h => by omega⟩, ?_⟩
      have hz : ∀ t, splitRange (poolSplit workers ideal 0).1 0 t = (mul32 t (poolSplit workers ideal 0).1, 0) := fun t => by
        unfold splitRange; simp
      unfold aggregate
      funext t
      unfold tasks
      simp only [hz]
      by_cases ht : t < (poolSplit workers ideal 0).2
      · rw [if_pos ht, if_pos ht]
        have : mul32 t (poolSplit workers ideal 0).1 = 0 := by
          unfold poolSplit at ht ⊢
          by_cases hw : workers > 1
          · rw [if_pos hw] at ht
            simp only at ht
            rw [ceilDiv32_eq hid (by omega)] at ht
            have := cdiv_le_self (a := 0) (b := ideal) hid
            omega
          · rw [if_neg hw]; simp [mul32]
        rw [this, forNe_eq _ (by omega) (by omega)]
      · rw [if_neg ht, if_neg ht]
    · have h : SplitOk ideal size := ⟨h0, hid, hsum⟩
      refine ⟨_, _, _, poolSplit_split (workers := workers) h, ?_⟩
      unfold aggregate
      funext t
      unfold tasks
      by_cases ht : t < (poolSplit workers ideal size).2
      · simp only [if_pos ht]
        have := poolSplit_le (workers := workers) h ht
        exact forNe_eq _ (by omega) (by omega)
      · simp only [if_neg ht]
  obtain ⟨nt, lo, hi, h1, h2⟩ := hspl
  have hends : ∀ m', Phase.Ends (aggregate workers ideal dst size agg) m m' → Phase.Ends (nt, fun t => forLt (lo t) (hi t) fun i => aggStep dst (agg i)) m m' := by
    intro m' h
    unfold Phase.Ends at *
    rw [h2] at h
    exact h
  have hsafe := items_safe h1 hit (ok := fun w l => ∃ i, i < size ∧ if w then l ∈ (agg i).target dst else l ∈ (agg i).source)
    (fun i hi l hl => ⟨i, hi, hl⟩) (fun i hi l hl => ⟨i, hi, hl⟩)
  refine ⟨⟨?_, fun _ _ => trivial⟩, ends_exists _ m, ?_⟩
  · unfold Phase.Safe at *
    rw [h2]
    exact hsafe
  · rintro m' ⟨m1, h3, h4⟩
    have h4 : m' = m1 := h4
    subst h4
    obtain ⟨h5, h6⟩ := items_spec h1 hit (hends _ h3)
    exact ⟨fun i k hi hk => h5 i hi k hk, h6⟩

/-- **C50 (negation).**  With the maximum number of entries, the number of work units wraps around to zero
and nothing is written. -/
theorem C50_aggregate_huge (dst : Nat) (agg : Nat → Entry) (m m' : Nat → Byte) (h : Ends [aggregate 8 16384 dst (2 ^ 32 - 1) agg] m m') : m' = m := by
  obtain ⟨m1, h1, h2⟩ := h
  have hp : (poolSplit 8 16384 (2 ^ 32 - 1)).2 = 0 := by decide +kernel
  unfold aggregate at h1
  rw [hp] at h1
  have h3 := (phase_spec (R := fun _ => ∅) (W := fun _ => ∅) (Q := fun _ _ => True)
    (fun i j hi => absurd hi (Nat.not_lt_zero _)) (fun i hi => absurd hi (Nat.not_lt_zero _)) h1).2
  have h4 : m1 = m := funext fun l => h3 l (fun i hi => absurd hi (Nat.not_lt_zero _))
  rw [← h4]
  exact h2

/-- Two entries, a literal of four bytes and a reference to eight bytes: the hypotheses can be met. -/
example : ∀ m m', Ends [aggregate 8 16384 1000 2 (fun i => if i = 0 then ⟨4, 0, 0x01020304⟩ else ⟨-8, 8, 5000⟩)] m m' →
    m' 1000 = 4 ∧ m' 1001 = 3 ∧ m' 1009 = m 5001 ∧ m' 1004 = m 1004 := by
  intro m m' h
  have hv : ∀ i, i < 2 → ((fun i : Nat => if i = 0 then (⟨4, 0, 0x01020304⟩ : Entry) else ⟨-8, 8, 5000⟩) i).Valid := by
    intro i hi
    have : i = 0 ∨ i = 1 := by omega
    rcases this with rfl | rfl
    · exact Or.inr (Or.inr (Or.inl rfl))
    · exact Or.inr (Or.inr (Or.inr rfl))
  have hb0 : (⟨4, 0, 0x01020304⟩ : Entry).bytes = 4 := rfl
  have hb1 : (⟨-8, 8, 5000⟩ : Entry).bytes = 8 := rfl
  obtain ⟨_, _, h3⟩ := C50_aggregate 8 16384 1000 2 (fun i => if i = 0 then ⟨4, 0, 0x01020304⟩ else ⟨-8, 8, 5000⟩) (by omega) (by omega) hv
    (by
      intro i j hi hj hij l h1 h2
      have h0 : (i = 0 ∧ j = 1) ∨ (i = 1 ∧ j = 0) := by omega
      rcases h0 with ⟨rfl, rfl⟩ | ⟨rfl, rfl⟩
      · obtain ⟨a1, a2⟩ := h1; obtain ⟨b1, b2⟩ := h2; simp [hb0, hb1] at a1 a2 b1 b2; omega
      · obtain ⟨a1, a2⟩ := h1; obtain ⟨b1, b2⟩ := h2; simp [hb0, hb1] at a1 a2 b1 b2; omega)
    (by
      intro i j hi hj l h1 h2
      obtain ⟨a1, a2⟩ := h1; obtain ⟨b1, b2, b3⟩ := h2
      have h0 : i = 0 ∨ i = 1 := by omega
      have h0' : j = 0 ∨ j = 1 := by omega
      rcases h0 with rfl | rfl <;> rcases h0' with rfl | rfl <;> simp [hb0, hb1] at a1 a2 b1 b2 b3 <;> omega) m
  obtain ⟨h4, h5⟩ := h3 m' h
  refine ⟨?_, ?_, ?_, ?_⟩
  · have := h4 0 0 (by omega) (by decide); simpa [Entry.byte] using this
  · have := h4 0 1 (by omega) (by decide); simpa [Entry.byte] using this
  · have := h4 1 1 (by omega) (by decide); simpa [Entry.byte] using this
  · refine h5 1004 (fun i hi hc => ?_)
    obtain ⟨a1, a2⟩ := hc
    have h0 : i = 0 ∨ i = 1 := by omega
    rcases h0 with rfl | rfl <;> simp [hb0, hb1] at a1 a2

end Verif.Llvm.Mem
