import Verif.MetalPacket.Model
import Verif.CudaPacket.Props

/-!
# C93: packet gathers and scatters on Metal devices

The specification is that of CUDA devices: `byteAddr`, `ElementSize`, `Writes`, `Valid` (`Verif.CudaPacket.Spec`).
-/
namespace Verif.MetalPacket
open Verif.CudaPacket (Byte Values Lane applyStores boolValue gatherBool laneStores mem_laneStores applyStores_spec byteAddr_inj index_lt)
open Verif.CudaPacket.Spec

/-! ### Division into words -/

theorem shrink_step (total b : Nat) (hb : 1 < b) : shrink total b = if total % b = 0 then b else shrink total (b / 2) := by
  rw [shrink]
  by_cases h : total % b = 0
  · rw [dif_neg (fun hc => hc.2 h), if_pos h]
  · rw [dif_pos ⟨hb, h⟩, if_neg h]

theorem shrink_one (total : Nat) : shrink total 1 = 1 := by rw [shrink]; simp

/-- Words consist of 1, 2 or 4 elements of at most 16 bytes in total, and packets consist of words. -/
structure Division (count tsize lanes n : Nat) : Prop where
  bytes : chunkBytes tsize (count * tsize) = lanes * tsize
  total : n * lanes = count
  vec : lanes = 1 ∨ lanes = 2 ∨ lanes = 4
  dvd : lanes * tsize ∣ 16
  even : count % 2 = 0 → 2 ≤ lanes

theorem division {count tsize : Nat} (ht : ElementSize tsize) : ∃ lanes n, Division count tsize lanes n := by
  have key : ∀ lanes, chunkBytes tsize (count * tsize) = lanes * tsize → count % lanes = 0 → (lanes = 1 ∨ lanes = 2 ∨ lanes = 4) → lanes * tsize ∣ 16 →
      (count % 2 = 0 → 2 ≤ lanes) → ∃ lanes n, Division count tsize lanes n := fun lanes h1 h2 h3 h4 h5 =>
    ⟨lanes, count / lanes, h1, Nat.div_mul_cancel (Nat.dvd_of_mod_eq_zero h2), h3, h4, h5⟩
  have s16 := fun t => shrink_step t 16 (by decide)
  have s8 := fun t => shrink_step t 8 (by decide)
  have s4 := fun t => shrink_step t 4 (by decide)
  have s2 := fun t => shrink_step t 2 (by decide)
  norm_num at s16 s8 s4 s2
  rcases ht with rfl | rfl | rfl | rfl
  · have cb : ∀ t, chunkBytes 1 t = shrink t 4 := fun t => by unfold chunkBytes; rw [if_neg (by decide)]
    by_cases h4 : count % 4 = 0
    · exact key 4 (by rw [cb, s4, if_pos (by omega)]) h4 (by simp) (by decide) (by omega)
    · by_cases h2 : count % 2 = 0
      · exact key 2 (by rw [cb, s4, if_neg (by omega), s2, if_pos (by omega)]) h2 (by simp) (by decide) (by omega)
      · exact key 1 (by rw [cb, s4, if_neg (by omega), s2, if_neg (by omega), shrink_one]) (by omega) (by simp) (by decide) (by omega)
  · have cb : ∀ t, chunkBytes 2 t = shrink t 8 := fun t => by unfold chunkBytes; rw [if_neg (by decide)]
    by_cases h4 : count % 4 = 0
    · exact key 4 (by rw [cb, s8, if_pos (by omega)]) h4 (by simp) (by decide) (by omega)
    · by_cases h2 : count % 2 = 0
      · exact key 2 (by rw [cb, s8, if_neg (by omega), s4, if_pos (by omega)]) h2 (by simp) (by decide) (by omega)
      · exact key 1 (by rw [cb, s8, if_neg (by omega), s4, if_neg (by omega), s2, if_pos (by omega)]) (by omega) (by simp) (by decide) (by omega)
  · have cb : ∀ t, chunkBytes 4 t = shrink t 16 := fun t => by unfold chunkBytes; rw [if_neg (by decide)]
    by_cases h4 : count % 4 = 0
    · exact key 4 (by rw [cb, s16, if_pos (by omega)]) h4 (by simp) (by decide) (by omega)
    · by_cases h2 : count % 2 = 0
      · exact key 2 (by rw [cb, s16, if_neg (by omega), s8, if_pos (by omega)]) h2 (by simp) (by decide) (by omega)
      · exact key 1 (by rw [cb, s16, if_neg (by omega), s8, if_neg (by omega), s4, if_pos (by omega)]) (by omega) (by simp) (by decide) (by omega)
  · have cb : ∀ t, chunkBytes 8 t = shrink t 16 := fun t => by unfold chunkBytes; rw [if_pos (by decide)]
    by_cases h2 : count % 2 = 0
    · exact key 2 (by rw [cb, s16, if_pos (by omega)]) h2 (by simp) (by decide) (by omega)
    · exact key 1 (by rw [cb, s16, if_neg (by omega), s8, if_pos (by omega)]) (by omega) (by simp) (by decide) (by omega)

theorem tsize_pos {tsize : Nat} (ht : ElementSize tsize) : 0 < tsize := by rcases ht with h | h | h | h <;> omega

theorem wordType_ok {b : Nat} (h : b ∣ 16) : wordType b = true := by
  have : ∀ b < 17, b ∣ 16 → wordType b = true := by decide
  exact this b (by have := Nat.le_of_dvd (by decide) h; omega) h

/-- **C93**: words have a type, stay inside of the packet, and are aligned if the array is. -/
theorem C93_words {count tsize : Nat} (hc : 0 < count) (ht : ElementSize tsize) :
    wordType (chunkBytes tsize (count * tsize)) = true ∧
    ∀ c < count * tsize / chunkBytes tsize (count * tsize),
      c * chunkBytes tsize (count * tsize) + chunkBytes tsize (count * tsize) ≤ count * tsize ∧
      ∀ base index, base % 16 = 0 → wordAddr (base + index * (count * tsize)) (chunkBytes tsize (count * tsize)) c % chunkBytes tsize (count * tsize) = 0 := by
  obtain ⟨lanes, n, d⟩ := division (count := count) ht
  have htp := tsize_pos ht
  have hdvd : lanes * tsize ∣ count * tsize := ⟨n, by rw [← d.total]; ring⟩
  rw [d.bytes]
  refine ⟨wordType_ok d.dvd, fun c hlt => ⟨?_, fun base index hb => ?_⟩⟩
  · have : (c + 1) * (lanes * tsize) ≤ count * tsize / (lanes * tsize) * (lanes * tsize) := Nat.mul_le_mul_right _ hlt
    rw [Nat.div_mul_cancel hdvd, Nat.succ_mul] at this
    exact this
  · unfold wordAddr
    apply Nat.mod_eq_zero_of_dvd
    exact Nat.dvd_add (Nat.dvd_add (d.dvd.trans (Nat.dvd_of_mod_eq_zero hb)) (hdvd.mul_left index)) (Dvd.intro_left c rfl)

example : chunkBytes 4 (6 * 4) = 8 ∧ ElementSize 4 := by
  refine ⟨?_, .inr (.inr (.inl rfl))⟩
  unfold chunkBytes
  rw [if_neg (by decide), shrink_step _ _ (by decide), if_neg (by decide), shrink_step _ _ (by decide), if_pos (by decide)]

/-! ### Gathers -/

theorem gatherPacket_spec (masked : Bool) {count tsize : Nat} (ht : ElementSize tsize) (mem : Nat → Byte) (base index : Nat) (mask : Bool)
    (hm : masked = false → mask = true) :
    ∃ outs, gatherPacket masked count tsize mem base index mask = some outs ∧ outs.length = count ∧
      ∀ i < count, ∃ o, outs[i]? = some o ∧ ∀ k < tsize, o k = if mask then mem (byteAddr count tsize base index i k) else 0 := by
  obtain ⟨lanes, n, d⟩ := division (count := count) ht
  have htp := tsize_pos ht
  have hl : lanes * tsize / tsize = lanes := Nat.mul_div_cancel _ htp
  unfold gatherPacket
  simp only [d.bytes, hl]
  rw [if_pos (wordType_ok d.dvd)]
  refine ⟨_, rfl, by simp, fun i hi => ⟨_, by rw [List.getElem?_map, List.getElem?_range hi]; rfl, fun k hk => ?_⟩⟩
  have hmask : (masked && !mask) = !mask := by
    cases mask with
    | true => simp
    | false => cases masked with
      | true => rfl
      | false => exact absurd (hm rfl) (by simp)
  dsimp only
  rw [hmask]
  cases mask with
  | false => simp
  | true =>
    simp only [Bool.not_true, Bool.false_eq_true, if_false, if_true]
    have e : ∀ x y, x * (lanes * tsize) + (y * tsize + k) = (x * lanes + y) * tsize + k := fun x y => by ring
    by_cases h1 : lanes = 1
    · rw [if_pos h1]
      congr 1
      unfold wordAddr byteAddr
      rw [h1, Nat.div_one, Nat.one_mul]
      ring
    · rw [if_neg h1]
      congr 1
      unfold wordAddr byteAddr
      have h2 := e (i / lanes) (i % lanes)
      rw [Nat.div_add_mod' i lanes] at h2
      have h3 : (index * count + i) * tsize = index * (count * tsize) + i * tsize := by ring
      rw [h3]
      omega

/-- **C93**: a packet gather has the elements of the packet as results, and zeros for lanes that are masked, whether it is one operation or
separate ones. -/
theorem C93_gather (masked other : Bool) {count tsize size : Nat} (hc : 2 ≤ count) (hs : size % count = 0) (h32 : size ≤ 2 ^ 32)
    (ht : ElementSize tsize) (mem : Nat → Byte) (base index : Nat) (mask : Bool) (hm : masked = false → mask = true)
    (hi : mask = true → index < size / count) :
    ∃ outs, gatherN masked other count tsize size mem base index mask = some outs ∧ outs.length = count ∧
      ∀ i < count, ∃ o, outs[i]? = some o ∧ ∀ k < tsize, o k = if mask then mem (byteAddr count tsize base index i k) else 0 := by
  unfold gatherN
  rw [if_neg (by omega), if_neg (by omega)]
  by_cases hp : (other || decide (count % 2 ≠ 0)) = true
  · rw [if_pos hp]
    refine ⟨_, rfl, by simp, fun i hlt => ⟨gather1 masked tsize mem base ((index * count + i) % 2 ^ 32) mask, by simp [hlt], fun k hk => ?_⟩⟩
    unfold gather1
    cases mask with
    | false =>
      have : masked = true := by cases masked with
        | false => exact absurd (hm rfl) (by simp)
        | true => rfl
      subst this
      rfl
    | true =>
      have h1 := index_lt (hi rfl) hlt
      rw [Nat.mod_eq_of_lt (by omega)]
      cases masked <;> rfl
  · rw [if_neg hp]
    exact gatherPacket_spec masked ht mem base index mask hm

/-- **C93**: elements of packets of masks are set if and only if the byte in memory is not zero. -/
theorem C93_gather_bool (masked other : Bool) {count size : Nat} (hc : 2 ≤ count) (hs : size % count = 0) (h32 : size ≤ 2 ^ 32)
    (mem : Nat → Byte) (base index : Nat) (mask : Bool) (hm : masked = false → mask = true) (hi : mask = true → index < size / count) :
    ∃ outs, gatherN masked other count 1 size mem base index mask = some outs ∧ outs.length = count ∧
      ∀ i < count, ∃ o, outs[i]? = some o ∧ (gatherBool o = true ↔ mask = true ∧ mem (base + index * count + i) ≠ 0) := by
  obtain ⟨outs, h1, h2, h3⟩ := C93_gather masked other hc hs h32 (.inl rfl) mem base index mask hm hi
  refine ⟨outs, h1, h2, fun i hlt => ?_⟩
  obtain ⟨o, h4, h5⟩ := h3 i hlt
  refine ⟨o, h4, ?_⟩
  unfold gatherBool
  rw [h5 0 (by decide)]
  have e : byteAddr count 1 base index i 0 = base + index * count + i := by unfold byteAddr; omega
  rw [e]
  cases mask <;> simp

/-! ### Scatters -/

theorem scatterPacket_spec {count tsize : Nat} (hc : count % 2 = 0) (ht : ElementSize tsize) (base index : Nat) (mask : Bool) (v : Values) :
    scatterPacket count tsize base index mask v =
      some (if mask then (List.range count).flatMap fun i => (List.range tsize).map fun k => (base + (index + i) * tsize + k, v.bytes i k) else []) := by
  obtain ⟨lanes, n, d⟩ := division (count := count) ht
  have htp := tsize_pos ht
  have hl2 := d.even hc
  have hl : lanes * tsize / tsize = lanes := Nat.mul_div_cancel _ htp
  have hn : count * tsize / (lanes * tsize) = n := by
    rw [Nat.mul_div_mul_right _ _ htp, ← d.total, Nat.mul_div_cancel _ (by omega)]
  unfold scatterPacket
  simp only [d.bytes, hl, hn]
  rw [if_neg (by rw [wordType_ok d.dvd]; simp; omega)]
  cases mask with
  | false => rfl
  | true =>
    simp only [if_true]
    congr 1
    have e1 : ((List.range n).flatMap fun c => (List.range (lanes * tsize)).map fun k =>
        (wordAddr (base + index * tsize) (lanes * tsize) c + k, packWord lanes tsize v c k)) =
        (List.range n).flatMap fun c => (List.range (lanes * tsize)).map fun k =>
          (fun x => (base + index * tsize + x, v.bytes (x / tsize) (x % tsize))) (c * (lanes * tsize) + k) := by
      apply List.flatMap_congr
      intro c _
      apply List.map_congr_left
      intro k _
      have h1 : c * (lanes * tsize) + k = k + c * lanes * tsize := by ring
      unfold packWord wordAddr
      rw [if_neg (by omega)]
      simp only
      rw [h1, Nat.add_mul_div_right _ _ htp, Nat.add_mul_mod_self_right, Nat.add_comm (k / tsize)]
      congr 1
      have : c * (lanes * tsize) = c * lanes * tsize := by ring
      omega
    have e2 : ((List.range count).flatMap fun i => (List.range tsize).map fun k => (base + (index + i) * tsize + k, v.bytes i k)) =
        (List.range count).flatMap fun i => (List.range tsize).map fun k =>
          (fun x => (base + index * tsize + x, v.bytes (x / tsize) (x % tsize))) (i * tsize + k) := by
      apply List.flatMap_congr
      intro i _
      apply List.map_congr_left
      intro k hk
      rw [List.mem_range] at hk
      have h1 : i * tsize + k = k + i * tsize := by ring
      simp only
      rw [h1, Nat.add_mul_div_right _ _ htp, Nat.add_mul_mod_self_right, Nat.div_eq_of_lt hk, Nat.mod_eq_of_lt hk, Nat.zero_add]
      congr 1
      ring
    rw [e1, e2, CudaPacket.flatten_range n (lanes * tsize) (fun x => (base + index * tsize + x, v.bytes (x / tsize) (x % tsize))),
      CudaPacket.flatten_range count tsize (fun x => (base + index * tsize + x, v.bytes (x / tsize) (x % tsize)))]
    congr 2
    rw [← d.total]; ring

theorem scatterN_spec (ops : Bool) {count tsize size : Nat} (hc : 0 < count) (hs : size % count = 0) (h32 : size ≤ 2 ^ 32) (ht : ElementSize tsize)
    (base : Nat) (l : Lane) (hv : Valid count tsize size l) :
    scatterN ops count tsize size base l.index l.mask l.vals = some (laneStores count tsize base l) := by
  unfold scatterN laneStores
  rw [if_neg (by omega)]
  by_cases hp : (ops && decide (count > 1) && decide (count % 2 = 0)) = true
  · rw [if_pos hp]
    simp only [Bool.and_eq_true, decide_eq_true_eq] at hp
    rw [scatterPacket_spec hp.2 ht base _ l.mask l.vals]
    cases hm : l.mask with
    | false => rfl
    | true =>
      have := index_lt (hv.1 hm) hc
      rw [Nat.mod_eq_of_lt (by omega)]
      rfl
  · rw [if_neg hp]
    cases hm : l.mask with
    | false => simp [scatter1]
    | true =>
      rw [if_pos rfl]
      congr 1
      apply List.flatMap_congr
      intro i hi
      rw [List.mem_range] at hi
      have := index_lt (hv.1 hm) hi
      unfold scatter1
      rw [if_pos rfl, Nat.mod_eq_of_lt (by omega)]
      rfl

theorem exec_stores {ops : Bool} {count tsize size : Nat} (hc : 0 < count) (hs : size % count = 0) (h32 : size ≤ 2 ^ 32) (ht : ElementSize tsize)
    {base : Nat} : ∀ {lanes : List Lane}, (∀ l ∈ lanes, Valid count tsize size l) → ∀ {sts : List (List (Nat × Byte))},
    List.Forall₂ (fun (l : Lane) s => scatterN ops count tsize size base l.index l.mask l.vals = some s) lanes sts ↔
      sts = lanes.map (laneStores count tsize base) := by
  intro lanes
  induction lanes with
  | nil => intro _ sts; simp
  | cons l lanes ih =>
    intro hv sts
    have h0 := scatterN_spec ops hc hs h32 ht base l (hv l (by simp))
    rw [List.forall₂_cons_left_iff]
    constructor
    · rintro ⟨s, sts', h1, h2, rfl⟩
      rw [h0] at h1
      rw [(ih fun l hl => hv l (List.mem_cons_of_mem _ hl)).1 h2, List.map_cons, Option.some.inj h1]
    · rintro rfl
      exact ⟨_, _, h0, (ih fun l hl => hv l (List.mem_cons_of_mem _ hl)).2 rfl, rfl⟩

/-- A packet scatter on a Metal device has the same executions as on a CUDA device, of either kind. -/
theorem C93_scatter_cuda {ops wide ops' : Bool} {count tsize size : Nat} (hc : 0 < count) (hs : size % count = 0) (h32 : size ≤ 2 ^ 32) (ht : ElementSize tsize)
    {base : Nat} {lanes : List Lane} (hv : ∀ l ∈ lanes, Valid count tsize size l) (m m' : Nat → Byte) :
    ScatterExec ops count tsize size base lanes m m' ↔ CudaPacket.ScatterExec wide ops' count tsize size base lanes m m' := by
  constructor
  · rintro ⟨sts, ws, h1, h2, h3⟩
    exact ⟨sts, ws, (CudaPacket.exec_stores hc hs h32 ht hv).2 ((exec_stores hc hs h32 ht hv).1 h1), h2, h3⟩
  · rintro ⟨sts, ws, h1, h2, h3⟩
    exact ⟨sts, ws, (exec_stores hc hs h32 ht hv).2 ((CudaPacket.exec_stores hc hs h32 ht hv).1 h1), h2, h3⟩

/-- **C93**: whatever the order of stores, after a packet scatter every byte is one that a lane has written there; bytes that no lane writes are unchanged.  Masked lanes
write nothing, and others exactly the bytes of their packet. -/
theorem C93_scatter_any {ops : Bool} {count tsize size : Nat} (hc : 0 < count) (hs : size % count = 0) (h32 : size ≤ 2 ^ 32) (ht : ElementSize tsize)
    {base : Nat} {lanes : List Lane} (hv : ∀ l ∈ lanes, Valid count tsize size l) {m m' : Nat → Byte}
    (h : ScatterExec ops count tsize size base lanes m m') (a : Nat) :
    (m' a = m a ∧ ∀ l ∈ lanes, ∀ b, ¬ Writes count tsize base l a b) ∨ ∃ l ∈ lanes, Writes count tsize base l a (m' a) :=
  CudaPacket.C90_scatter_any hc hs h32 ht hv ((C93_scatter_cuda (wide := false) (ops' := false) hc hs h32 ht hv m m').1 h) a

/-- **C93**: a packet scatter stores all values of all lanes that are not masked, if their indices differ, and changes nothing else. -/
theorem C93_scatter {ops : Bool} {count tsize size : Nat} (hc : 0 < count) (hs : size % count = 0) (h32 : size ≤ 2 ^ 32) (ht : ElementSize tsize)
    {base : Nat} {lanes : List Lane} (hv : ∀ l ∈ lanes, Valid count tsize size l)
    (hd : lanes.Pairwise fun l l' => l.mask = true → l'.mask = true → l.index ≠ l'.index) {m m' : Nat → Byte}
    (h : ScatterExec ops count tsize size base lanes m m') :
    (∀ l ∈ lanes, l.mask = true → ∀ i < count, ∀ k < tsize, m' (byteAddr count tsize base l.index i k) = l.vals.bytes i k) ∧
    (∀ a, (∀ l ∈ lanes, l.mask = true → ∀ i < count, ∀ k < tsize, a ≠ byteAddr count tsize base l.index i k) → m' a = m a) :=
  CudaPacket.C90_scatter hc hs h32 ht hv hd ((C93_scatter_cuda (wide := false) (ops' := false) hc hs h32 ht hv m m').1 h)

/-- Packet scatters are always executed. -/
theorem C93_scatter_exists (ops : Bool) {count tsize size : Nat} (hc : 0 < count) (hs : size % count = 0) (h32 : size ≤ 2 ^ 32) (ht : ElementSize tsize)
    (base : Nat) {lanes : List Lane} (hv : ∀ l ∈ lanes, Valid count tsize size l) (m : Nat → Byte) :
    ∃ m', ScatterExec ops count tsize size base lanes m m' :=
  ⟨_, _, _, (exec_stores hc hs h32 ht hv).2 rfl, .refl _, rfl⟩

/-- **C93**: a packet that is scattered (in any way) and then gathered (in any way) is unchanged, also for masks. -/
theorem C93_roundtrip {ops : Bool} {count tsize size : Nat} (hc : 2 ≤ count) (hs : size % count = 0) (h32 : size ≤ 2 ^ 32) (ht : ElementSize tsize)
    {base : Nat} {lanes : List Lane} (hv : ∀ l ∈ lanes, Valid count tsize size l)
    (hd : lanes.Pairwise fun l l' => l.mask = true → l'.mask = true → l.index ≠ l'.index) {m m' : Nat → Byte}
    (h : ScatterExec ops count tsize size base lanes m m') (masked other : Bool) {l : Lane} (hl : l ∈ lanes) (hm : l.mask = true) :
    ∃ outs, gatherN masked other count tsize size m' base l.index true = some outs ∧ outs.length = count ∧
      ∀ i < count, ∃ o, outs[i]? = some o ∧ (∀ k < tsize, o k = l.vals.bytes i k) ∧ ∀ v, l.vals = .bools v → gatherBool o = v i := by
  obtain ⟨outs, h1, h2, h3⟩ := C93_gather masked other hc hs h32 ht m' base l.index true (fun _ => rfl) (fun _ => (hv l hl).1 hm)
  refine ⟨outs, h1, h2, fun i hi => ?_⟩
  obtain ⟨o, h4, h5⟩ := h3 i hi
  have h6 : ∀ k < tsize, o k = l.vals.bytes i k := fun k hk => by
    rw [h5 k hk, if_pos rfl]
    exact (C93_scatter (by omega) hs h32 ht hv hd h).1 l hl hm i hi k hk
  refine ⟨o, h4, h6, fun v hvl => ?_⟩
  unfold gatherBool
  rw [h6 0 (tsize_pos ht), hvl]
  simp only [Values.bytes, boolValue, if_true]
  cases v i <;> decide

/-- Lanes that scatter packets of six masks; one of them is masked. -/
example : ∃ lanes : List Lane, lanes.length = 3 ∧ (∀ l ∈ lanes, Valid 6 1 18 l) ∧
    lanes.Pairwise (fun l l' => l.mask = true → l'.mask = true → l.index ≠ l'.index) :=
  ⟨[⟨0, true, .bools fun i => i % 2 == 0⟩, ⟨2, true, .bools fun _ => true⟩, ⟨2, false, .bools fun _ => false⟩], rfl,
    by simp [Valid], by simp⟩

/-- Packet scatters are accepted for targets with a single element, and write behind them. -/
theorem C93_single_target_counterexample : ∃ s, scatterN true 2 4 1 0 0 true (.other fun _ _ => 7) = some s ∧ (4, 7) ∈ s := by
  refine ⟨(List.range 2).flatMap fun i => (List.range 4).map fun k => (0 + (0 + i) * 4 + k, 7), ?_, by decide⟩
  unfold scatterN
  rw [if_neg (by decide), if_pos (by decide)]
  exact scatterPacket_spec (by decide) (.inr (.inr (.inl rfl))) 0 0 true _

/-- Arrays that are mapped are never marked as unaligned unless the LLVM backend is used (`var.cpp:1812-1816`), so that words of packets of such arrays are
misaligned. -/
theorem C93_misaligned_counterexample : ∃ ptr, (∀ w tsize, CudaPacket.unalignedFlag false w tsize ptr = false) ∧ ptr % 4 = 0 ∧
    chunkBytes 4 (4 * 4) = 16 ∧ wordAddr (ptr + 0 * (4 * 4)) (chunkBytes 4 (4 * 4)) 0 % 16 ≠ 0 := by
  have h : chunkBytes 4 (4 * 4) = 16 := by
    unfold chunkBytes
    rw [if_neg (by decide), shrink_step _ _ (by decide), if_pos (by decide)]
  refine ⟨4, fun _ _ => rfl, by decide, h, ?_⟩
  rw [h]
  decide

end Verif.MetalPacket
