import Verif.CudaPacket.Lemmas
import Verif.CudaPacket.Spec

/-! # C90: packet gathers and scatters on CUDA devices -/
namespace Verif.CudaPacket
open Spec

theorem index_lt {size count index i : Nat} (hi : index < size / count) (h : i < count) : index * count + i < size := by
  have h1 : (index + 1) * count ≤ size := (Nat.le_div_iff_mul_le (by omega)).1 hi
  rw [Nat.succ_mul] at h1
  omega

/-- **C90**: a packet gather has the elements of the packet as results, and zeros for lanes that are masked, whether it is one operation or
separate ones, whatever accesses the device supports, and whatever registers contain before. -/
theorem C90_gather (wide masked other unaligned : Bool) {count tsize size : Nat} (hc : 2 ≤ count) (hs : size % count = 0) (h32 : size ≤ 2 ^ 32)
    (ht : ElementSize tsize) (mem : Nat → Byte) (base index : Nat) (mask : Bool) (hm : masked = false → mask = true)
    (hi : mask = true → index < size / count) (init : Nat → Nat → Byte) :
    ∃ outs, gatherN wide masked other unaligned count tsize size mem base index mask init = some outs ∧ outs.length = count ∧
      ∀ i < count, ∃ o, outs[i]? = some o ∧ ∀ k < tsize, o k = if mask then mem (byteAddr count tsize base index i k) else 0 := by
  unfold gatherN
  rw [if_neg (by omega), if_neg (by omega)]
  by_cases hp : (other || decide (count % 2 ≠ 0) || unaligned) = true
  · rw [if_pos hp]
    refine ⟨_, rfl, by simp, fun i hlt => ⟨gather1 masked false tsize mem base ((index * count + i) % 2 ^ 32) mask, by simp [hlt], fun k hk => ?_⟩⟩
    unfold gather1
    cases mask with
    | false =>
      have : masked = true := by cases masked with
        | false => exact absurd (hm rfl) (by simp)
        | true => rfl
      subst this
      rfl
    | true =>
      simp only [Bool.not_true, Bool.and_false, Bool.false_eq_true, if_false, if_true]
      have h1 := index_lt (hi rfl) hlt
      rw [Nat.mod_eq_of_lt (by omega)]
      congr 1
      unfold address byteAddr
      rw [if_neg (by simp)]
      by_cases h : tsize = 1
      · rw [if_pos h, h]; omega
      · rw [if_neg h]; omega
  · rw [if_neg hp]
    simp only [Bool.or_eq_true, decide_eq_true_eq, not_or, not_not] at hp
    exact gatherPacket_spec wide masked hp.1.2 (by omega) ht mem base index mask hm init

/-- Separate accesses use the address of the element, also if the index is the literal zero. -/
theorem C90_address (zero : Bool) (tsize base index : Nat) (hz : zero = true → index = 0) : address zero tsize base index = base + index * tsize := by
  unfold address
  cases zero with
  | true => rw [hz rfl]; simp
  | false =>
    rw [if_neg (by simp)]
    by_cases h : tsize = 1
    · rw [if_pos h, h]; omega
    · rw [if_neg h]; omega

/-- **C90**: accesses of a packet operation are instructions that exist (one, two or four registers, or eight 4-byte registers on devices with 32-byte accesses), stay
inside of the packet, and are aligned if the array is. -/
theorem C90_accesses (wide : Bool) {count tsize : Nat} (hc : count % 2 = 0) (hp : 0 < count) (ht : ElementSize tsize) :
    ∃ l, accesses wide count tsize = some l ∧ ∀ a ∈ l,
      (a.regs = 1 ∨ a.regs = 2 ∨ a.regs = 4 ∨ (a.regs = 8 ∧ regBytes tsize (count * tsize) = 4 ∧ wide = true)) ∧
      a.regs * regBytes tsize (count * tsize) ≤ (if wide then 32 else 16) ∧
      a.off + a.regs * regBytes tsize (count * tsize) ≤ count * tsize ∧
      ∀ base index, base % (if wide then 32 else 16) = 0 →
        (base + index * (count * tsize) + a.off) % (a.regs * regBytes tsize (count * tsize)) = 0 := by
  obtain ⟨perIt, regs, T, d⟩ := division wide hc hp ht
  refine ⟨_, d.eq, fun a ha => ?_⟩
  simp only [List.mem_map, List.mem_range] at ha
  obtain ⟨i, hi, rfl⟩ := ha
  dsimp only
  rw [← d.per]
  refine ⟨d.vec, Nat.le_of_dvd (by cases wide <;> simp) d.dvd, ?_, fun base index hb => ?_⟩
  · rw [← d.total, ← Nat.succ_mul]
    exact Nat.mul_le_mul_right _ hi
  · apply Nat.mod_eq_zero_of_dvd
    have h1 : perIt ∣ count * tsize := ⟨T, by rw [← d.total, Nat.mul_comm]⟩
    exact Nat.dvd_add (Nat.dvd_add (d.dvd.trans (Nat.dvd_of_mod_eq_zero hb)) (h1.mul_left index)) (Dvd.intro_left i rfl)

/-! ### Scatters -/

/-- The stores of a lane -/
def laneStores (count tsize base : Nat) (l : Lane) : List (Nat × Byte) :=
  if l.mask then (List.range count).flatMap fun i => (List.range tsize).map fun k => (byteAddr count tsize base l.index i k, l.vals.bytes i k) else []

theorem scatterN_spec (wide ops : Bool) {count tsize size : Nat} (hc : 0 < count) (hs : size % count = 0) (h32 : size ≤ 2 ^ 32) (ht : ElementSize tsize)
    (base : Nat) (l : Lane) (hv : Valid count tsize size l) :
    scatterN wide ops count tsize size base l.index l.mask l.vals = some (laneStores count tsize base l) := by
  unfold scatterN laneStores
  rw [if_neg (by omega)]
  have hok : l.vals.OK tsize := by
    have := hv.2
    cases h : l.vals with
    | bools v => rw [h] at this; exact this
    | other v => exact trivial
  by_cases hp : (ops && decide (count > 1) && decide (count % 2 = 0)) = true
  · rw [if_pos hp]
    simp only [Bool.and_eq_true, decide_eq_true_eq] at hp
    rw [scatterPacket_spec wide hp.2 hc ht base _ l.mask l.vals hok]
    cases hm : l.mask with
    | false => rfl
    | true =>
      have := index_lt (hv.1 hm) hc
      rw [Nat.mod_eq_of_lt (by omega)]
      rfl
  · rw [if_neg hp]
    cases hm : l.mask with
    | false => simp [scatter1]
    | true =>
      rw [if_pos rfl]
      congr 1
      apply List.flatMap_congr
      intro i hi
      rw [List.mem_range] at hi
      have := index_lt (hv.1 hm) hi
      unfold scatter1
      rw [if_pos rfl, Nat.mod_eq_of_lt (by omega), C90_address _ _ _ _ (by simp)]
      rfl

theorem mem_laneStores {count tsize base : Nat} {l : Lane} {a : Nat} {b : Byte} : (a, b) ∈ laneStores count tsize base l ↔ Writes count tsize base l a b := by
  unfold laneStores Writes
  cases l.mask with
  | false => simp
  | true =>
    simp only [if_true, List.mem_flatMap, List.mem_map, List.mem_range, true_and, Prod.mk.injEq]
    constructor
    · rintro ⟨i, hi, k, hk, h1, h2⟩
      exact ⟨i, hi, k, hk, h1.symm, h2.symm⟩
    · rintro ⟨i, hi, k, hk, h1, h2⟩
      exact ⟨i, hi, k, hk, h1.symm, h2.symm⟩

theorem applyStores_spec (ws : List (Nat × Byte)) : ∀ (m : Nat → Byte) (a : Nat),
    (applyStores ws m a = m a ∧ ∀ b, (a, b) ∉ ws) ∨ (a, applyStores ws m a) ∈ ws := by
  induction ws with
  | nil => intro m a; left; exact ⟨rfl, by simp⟩
  | cons w ws ih =>
    intro m a
    have e : applyStores (w :: ws) m = applyStores ws (Function.update m w.1 w.2) := rfl
    rw [e]
    rcases ih (Function.update m w.1 w.2) a with ⟨h1, h2⟩ | h
    · by_cases h : a = w.1
      · right
        rw [h1, h, Function.update_self]
        simp
      · left
        rw [h1, Function.update_of_ne h]
        refine ⟨rfl, fun b hb => ?_⟩
        rcases List.mem_cons.1 hb with h3 | h3
        · exact h (by rw [← h3])
        · exact h2 b h3
    · right; exact List.mem_cons_of_mem _ h

theorem exec_stores {wide ops : Bool} {count tsize size : Nat} (hc : 0 < count) (hs : size % count = 0) (h32 : size ≤ 2 ^ 32) (ht : ElementSize tsize)
    {base : Nat} : ∀ {lanes : List Lane}, (∀ l ∈ lanes, Valid count tsize size l) → ∀ {sts : List (List (Nat × Byte))},
    List.Forall₂ (fun (l : Lane) s => scatterN wide ops count tsize size base l.index l.mask l.vals = some s) lanes sts ↔
      sts = lanes.map (laneStores count tsize base) := by
  intro lanes
  induction lanes with
  | nil => intro _ sts; simp
  | cons l lanes ih =>
    intro hv sts
    have h0 := scatterN_spec wide ops hc hs h32 ht base l (hv l (by simp))
    rw [List.forall₂_cons_left_iff]
    constructor
    · rintro ⟨s, sts', h1, h2, rfl⟩
      rw [h0] at h1
      rw [(ih fun l hl => hv l (List.mem_cons_of_mem _ hl)).1 h2, List.map_cons, Option.some.inj h1]
    · rintro rfl
      exact ⟨_, _, h0, (ih fun l hl => hv l (List.mem_cons_of_mem _ hl)).2 rfl, rfl⟩

/-- **C90**: whatever the order of stores, after a packet scatter every byte is one that a lane has written there; bytes that no lane writes are unchanged.  Masked lanes
write nothing, and others exactly the bytes of their packet. -/
theorem C90_scatter_any {wide ops : Bool} {count tsize size : Nat} (hc : 0 < count) (hs : size % count = 0) (h32 : size ≤ 2 ^ 32) (ht : ElementSize tsize)
    {base : Nat} {lanes : List Lane} (hv : ∀ l ∈ lanes, Valid count tsize size l) {m m' : Nat → Byte}
    (h : ScatterExec wide ops count tsize size base lanes m m') (a : Nat) :
    (m' a = m a ∧ ∀ l ∈ lanes, ∀ b, ¬ Writes count tsize base l a b) ∨ ∃ l ∈ lanes, Writes count tsize base l a (m' a) := by
  obtain ⟨sts, ws, h1, h2, rfl⟩ := h
  rw [exec_stores hc hs h32 ht hv] at h1
  have hmem : ∀ b, (a, b) ∈ ws ↔ ∃ l ∈ lanes, Writes count tsize base l a b := by
    intro b
    rw [h2.mem_iff, h1, List.mem_flatten]
    constructor
    · rintro ⟨s, hs, hb⟩
      obtain ⟨l, hl, rfl⟩ := List.mem_map.1 hs
      exact ⟨l, hl, mem_laneStores.1 hb⟩
    · rintro ⟨l, hl, hb⟩
      exact ⟨_, List.mem_map.2 ⟨l, hl, rfl⟩, mem_laneStores.2 hb⟩
  rcases applyStores_spec ws m a with ⟨e1, e2⟩ | e
  · exact .inl ⟨e1, fun l hl b hb => e2 b ((hmem b).2 ⟨l, hl, hb⟩)⟩
  · exact .inr ((hmem _).1 e)

theorem byteAddr_inj {count tsize base index i k index' i' k' : Nat} (hi : i < count) (hi' : i' < count) (hk : k < tsize) (hk' : k' < tsize)
    (h : byteAddr count tsize base index i k = byteAddr count tsize base index' i' k') : index = index' ∧ i = i' ∧ k = k' := by
  unfold byteAddr at h
  have split : ∀ {n a b a' b' : Nat}, b < n → b' < n → a * n + b = a' * n + b' → a = a' ∧ b = b' := by
    intro n a b a' b' h1 h2 h3
    have e1 : (a * n + b) / n = a := by rw [Nat.add_comm, Nat.add_mul_div_right _ _ (by omega), Nat.div_eq_of_lt h1, Nat.zero_add]
    have e2 : (a' * n + b') / n = a' := by rw [Nat.add_comm, Nat.add_mul_div_right _ _ (by omega), Nat.div_eq_of_lt h2, Nat.zero_add]
    have e3 : a = a' := by rw [← e1, ← e2, h3]
    subst e3
    exact ⟨rfl, by omega⟩
  obtain ⟨h1, h2⟩ := split hk hk' (show (index * count + i) * tsize + k = (index' * count + i') * tsize + k' by omega)
  obtain ⟨h3, h4⟩ := split hi hi' h1
  exact ⟨h3, h4, h2⟩

/-- **C90**: a packet scatter stores all values of all lanes that are not masked, if their indices differ, and changes nothing else. -/
theorem C90_scatter {wide ops : Bool} {count tsize size : Nat} (hc : 0 < count) (hs : size % count = 0) (h32 : size ≤ 2 ^ 32) (ht : ElementSize tsize)
    {base : Nat} {lanes : List Lane} (hv : ∀ l ∈ lanes, Valid count tsize size l)
    (hd : lanes.Pairwise fun l l' => l.mask = true → l'.mask = true → l.index ≠ l'.index) {m m' : Nat → Byte}
    (h : ScatterExec wide ops count tsize size base lanes m m') :
    (∀ l ∈ lanes, l.mask = true → ∀ i < count, ∀ k < tsize, m' (byteAddr count tsize base l.index i k) = l.vals.bytes i k) ∧
    (∀ a, (∀ l ∈ lanes, l.mask = true → ∀ i < count, ∀ k < tsize, a ≠ byteAddr count tsize base l.index i k) → m' a = m a) := by
  constructor
  · intro l hl hm i hi k hk
    rcases C90_scatter_any hc hs h32 ht hv h (byteAddr count tsize base l.index i k) with ⟨_, h2⟩ | ⟨l', hl', hm', i', hi', k', hk', h3, h4⟩
    · exact absurd ⟨hm, i, hi, k, hk, rfl, rfl⟩ (h2 l hl _)
    · obtain ⟨e1, e2, e3⟩ := byteAddr_inj hi hi' hk hk' h3
      subst e2 e3
      have : l = l' := by
        by_contra hne
        obtain ⟨x, hx, rfl⟩ := List.getElem_of_mem hl
        obtain ⟨y, hy, rfl⟩ := List.getElem_of_mem hl'
        rcases Nat.lt_trichotomy x y with h5 | h5 | h5
        · exact List.pairwise_iff_getElem.1 hd x y hx hy h5 hm hm' e1
        · subst h5; exact hne rfl
        · exact List.pairwise_iff_getElem.1 hd y x hy hx h5 hm' hm e1.symm
      rw [h4, this]
  · intro a ha
    rcases C90_scatter_any hc hs h32 ht hv h a with ⟨h1, _⟩ | ⟨l, hl, hm, i, hi, k, hk, h3, _⟩
    · exact h1
    · exact absurd h3 (ha l hl hm i hi k hk)

/-- Packet scatters are always executed. -/
theorem C90_scatter_exists (wide ops : Bool) {count tsize size : Nat} (hc : 0 < count) (hs : size % count = 0) (h32 : size ≤ 2 ^ 32) (ht : ElementSize tsize)
    (base : Nat) {lanes : List Lane} (hv : ∀ l ∈ lanes, Valid count tsize size l) (m : Nat → Byte) :
    ∃ m', ScatterExec wide ops count tsize size base lanes m m' :=
  ⟨_, _, _, (exec_stores hc hs h32 ht hv).2 rfl, .refl _, rfl⟩

/-- **C90**: a packet that is scattered (in any way) and then gathered (in any way) is unchanged, also for masks. -/
theorem C90_roundtrip {wide ops : Bool} {count tsize size : Nat} (hc : 2 ≤ count) (hs : size % count = 0) (h32 : size ≤ 2 ^ 32) (ht : ElementSize tsize)
    {base : Nat} {lanes : List Lane} (hv : ∀ l ∈ lanes, Valid count tsize size l)
    (hd : lanes.Pairwise fun l l' => l.mask = true → l'.mask = true → l.index ≠ l'.index) {m m' : Nat → Byte}
    (h : ScatterExec wide ops count tsize size base lanes m m') (wide' masked other unaligned : Bool) (init : Nat → Nat → Byte)
    {l : Lane} (hl : l ∈ lanes) (hm : l.mask = true) :
    ∃ outs, gatherN wide' masked other unaligned count tsize size m' base l.index true init = some outs ∧ outs.length = count ∧
      ∀ i < count, ∃ o, outs[i]? = some o ∧ (∀ k < tsize, o k = l.vals.bytes i k) ∧ ∀ v, l.vals = .bools v → gatherBool o = v i := by
  obtain ⟨outs, h1, h2, h3⟩ := C90_gather wide' masked other unaligned hc hs h32 ht m' base l.index true (fun _ => rfl) (fun _ => (hv l hl).1 hm) init
  refine ⟨outs, h1, h2, fun i hi => ?_⟩
  obtain ⟨o, h4, h5⟩ := h3 i hi
  have h6 : ∀ k < tsize, o k = l.vals.bytes i k := by
    intro k hk
    rw [h5 k hk, if_pos rfl]
    exact (C90_scatter (by omega) hs h32 ht hv hd h).1 l hl hm i hi k hk
  refine ⟨o, h4, h6, fun v hvv => ?_⟩
  unfold gatherBool
  rw [h6 0 (by rcases ht with h | h | h | h <;> omega), hvv]
  simp only [Values.bytes, boolValue, if_true]
  cases v i <;> rfl

/-- Masks that are gathered are set if their byte in memory is not zero, whatever its value (and the lane is active). -/
theorem C90_gather_bool (wide masked other unaligned : Bool) {count size : Nat} (hc : 2 ≤ count) (hs : size % count = 0) (h32 : size ≤ 2 ^ 32)
    (mem : Nat → Byte) (base index : Nat) (mask : Bool) (hm : masked = false → mask = true) (hi : mask = true → index < size / count) (init : Nat → Nat → Byte) :
    ∃ outs, gatherN wide masked other unaligned count 1 size mem base index mask init = some outs ∧ outs.length = count ∧
      ∀ i < count, ∃ o, outs[i]? = some o ∧ (gatherBool o = true ↔ mask = true ∧ mem (base + index * count + i) ≠ 0) := by
  obtain ⟨outs, h1, h2, h3⟩ := C90_gather wide masked other unaligned hc hs h32 (.inl rfl) mem base index mask hm hi init
  refine ⟨outs, h1, h2, fun i hlt => ?_⟩
  obtain ⟨o, h4, h5⟩ := h3 i hlt
  refine ⟨o, h4, ?_⟩
  unfold gatherBool
  rw [h5 0 (by decide)]
  unfold byteAddr
  rw [Nat.mul_one, Nat.add_zero, ← Nat.add_assoc]
  cases mask <;> simp

/-! ### Findings -/

/-- **C90**, refuted for mapped arrays: the flag that says that an array is not aligned is never set on CUDA devices, and a packet of four single precision numbers is accessed with
an instruction that requires an alignment of 16 bytes, whatever the address of the array. -/
theorem C90_misaligned_counterexample : ∃ ptr, (∀ w tsize, unalignedFlag false w tsize ptr = false) ∧ ptr % 4 = 0 ∧
    ∃ a, accesses false 4 4 = some [a] ∧ (ptr + a.off) % (a.regs * regBytes 4 (4 * 4)) ≠ 0 := by
  refine ⟨4, fun _ _ => rfl, by decide, ⟨0, 4⟩, ?_, by decide⟩
  have h := bytesPerIt_eq 16 false
  simp at h
  unfold accesses regBytes
  simp [h]

/-- Packet scatters are accepted for targets with a single element, and write behind them. -/
theorem C90_single_target_counterexample : ∃ s, scatterN false true 2 4 1 0 0 true (.other fun _ _ => 7) = some s ∧ (4, 7) ∈ s := by
  refine ⟨(List.range 2).flatMap fun i => (List.range 4).map fun k => (0 + (0 + i) * 4 + k, 7), ?_, by decide⟩
  unfold scatterN
  rw [if_neg (by decide), if_pos (by decide)]
  exact scatterPacket_spec false (by decide) (by decide) (.inr (.inr (.inl rfl))) 0 0 true _ trivial

/-! ### Examples -/

/-- Six half precision numbers per packet: three 4-byte accesses -/
example : ∃ l, accesses true 6 2 = some l ∧ l.length = 3 := by
  have h := bytesPerIt_eq 12 true
  simp at h
  unfold accesses regBytes
  simp [h]

/-- Sixteen single precision numbers on a device with 32-byte accesses -/
example : accesses true 16 4 = some [⟨0, 8⟩, ⟨32, 8⟩] := by
  have h := bytesPerIt_eq 64 true
  simp at h
  unfold accesses regBytes
  simp [h]
  rfl

/-- Two lanes with distinct packets of masks and one that is masked -/
def sampleLanes : List Lane := [⟨1, true, .bools fun i => i % 2 == 0⟩, ⟨0, true, .bools fun i => i == 3⟩, ⟨100, false, .bools fun _ => true⟩]

example : (∀ l ∈ sampleLanes, Valid 4 1 8 l) ∧ sampleLanes.Pairwise (fun l l' => l.mask = true → l'.mask = true → l.index ≠ l'.index) := by
  constructor
  · intro l hl
    simp only [sampleLanes, List.mem_cons, List.not_mem_nil, or_false] at hl
    rcases hl with rfl | rfl | rfl <;> simp [Valid]
  · simp [sampleLanes]

end Verif.CudaPacket
