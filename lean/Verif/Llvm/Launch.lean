import Verif.Llvm.U32
import Mathlib.Data.List.Nodup
import Mathlib.Data.List.Range

/-!
# C21: parallel launches cover every element exactly once

Model of `LLVMThreadState::launch` (`/repo/src/llvm_ts.cpp:96-200`) and of the loop around the body
of a kernel (`/repo/src/llvm_eval.cpp:73-215`).
-/
namespace Verif.Llvm

/-- The number of blocks and their size (llvm_ts.cpp:105-146): `packet` is the vector width,
`desired` the block size set by `jit_llvm_set_block_size`, `cores` the size of the thread pool. -/
def launchPlan (size packet desired cores : Nat) : Nat × Nat :=
  let packets := ceilDiv32 size packet
  if cores ≤ 1 then (1, size)
  else if packets ≤ cores then (packets, packet)
  else if size ≤ mul32 (mul32 desired cores) 2 then
    let blocks := mul32 2 cores
    (blocks, mul32 (ceilDiv32 packets blocks) packet)
  else (ceilDiv32 size desired, desired)

/-- The two sizes are passed to the tasks in one 64-bit word (llvm_ts.cpp:175-176) -/
def packSizes (block_size size : Nat) : Nat := (block_size * 2 ^ 32 + size) % 2 ^ 64

/-- The range of elements processed by task `index`, if any (llvm_ts.cpp:148-157) -/
def taskRange (word index : Nat) : Option (Nat × Nat) :=
  let size := word % 2 ^ 32
  let block_size := word / 2 ^ 32
  let start := mul32 index block_size
  let e := min (add32 start block_size) size
  if start ≥ e then none else some (start, e)

/-- First elements of the packets processed by the kernel for a range (llvm_eval.cpp:94-96,
208-213): the body is executed at `start`, `start + packet`, ... as long as the index is below the
end.  `start < e`. -/
def packetsOf (packet start e : Nat) : List Nat :=
  (List.range (cdiv (e - start) packet)).map (fun k => start + k * packet)

/-- The packets processed by task `index` -/
def taskPackets (packet word index : Nat) : List Nat :=
  (taskRange word index).elim [] (fun r => packetsOf packet r.1 r.2)

/-- The packets processed by all tasks of a launch, task by task -/
def launchPackets (size packet desired cores : Nat) : List (List Nat) :=
  let plan := launchPlan size packet desired cores
  let word := packSizes plan.2 size
  (List.range plan.1).map (taskPackets packet word)

/-! ### Proof -/

theorem packSizes_decode {b s : Nat} (hb : b < 2 ^ 32) (hs : s < 2 ^ 32) :
    packSizes b s % 2 ^ 32 = s ∧ packSizes b s / 2 ^ 32 = b := by
  unfold packSizes
  have : b * 2 ^ 32 + s < 2 ^ 64 := by omega
  rw [Nat.mod_eq_of_lt this]
  constructor <;> omega

/-- Packets of the first `n` blocks of `bs = q * packet` elements -/
theorem blocks_packets {size packet q : Nat} (hp : 0 < packet) (hq : 0 < q) (n : Nat)
    (f : Nat → List Nat)
    (hf : ∀ i < n, f i = if i * (q * packet) < size then packetsOf packet (i * (q * packet)) (min (i * (q * packet) + q * packet) size) else []) :
    ((List.range n).map f).flatten = (List.range (min (n * q) (cdiv size packet))).map (· * packet) := by
  induction n with
  | zero => simp
  | succ n ih =>
    rw [List.range_succ, List.map_append, List.flatten_append, ih (fun i hi => hf i (by omega))]
    simp only [List.map_cons, List.map_nil, List.flatten_cons, List.flatten_nil, List.append_nil]
    rw [hf n (by omega)]
    have hmul : n * (q * packet) = n * q * packet := by rw [Nat.mul_assoc]
    split
    · rename_i h
      unfold packetsOf
      have hlt : n * q < cdiv size packet := (lt_cdiv hp).2 (by rw [← hmul]; exact h)
      rw [min_eq_left (by omega : n * q ≤ cdiv size packet)]
      -- number of packets in this block
      have hnum : cdiv (min (n * (q * packet) + q * packet) size - n * (q * packet)) packet
          = min q (cdiv size packet - n * q) := by
        apply Nat.le_antisymm
        · apply cdiv_le hp
          rw [← Nat.mul_min_mul_right, Nat.sub_mul, ← hmul]
          have := cdiv_mul_ge (a := size) hp
          omega
        · by_contra hc
          have hc : cdiv (min (n * (q * packet) + q * packet) size - n * (q * packet)) packet
            < min q (cdiv size packet - n * q) := by omega
          generalize hk : cdiv (min (n * (q * packet) + q * packet) size - n * (q * packet)) packet = k at hc
          have h1 := cdiv_mul_ge (a := min (n * (q * packet) + q * packet) size - n * (q * packet)) hp
          rw [hk] at h1
          have h2 : n * q + k < cdiv size packet := by omega
          rw [lt_cdiv hp, Nat.add_mul, ← hmul] at h2
          have h3 : (k + 1) * packet ≤ q * packet := Nat.mul_le_mul_right _ (by omega)
          rw [Nat.add_mul] at h3
          omega
      rw [hnum]
      have htot : min ((n + 1) * q) (cdiv size packet) = n * q + min q (cdiv size packet - n * q) := by
        rw [Nat.add_mul]; omega
      rw [htot, List.range_add, List.map_append, List.map_map]
      congr 1
      apply List.map_congr_left
      intro k _
      simp only [Function.comp]
      rw [hmul, Nat.add_mul]
    · rename_i h
      have hge : cdiv size packet ≤ n * q := by
        apply cdiv_le hp; rw [← hmul]; omega
      rw [min_eq_right hge, min_eq_right (by rw [Nat.add_mul]; omega)]
      simp

theorem taskRange_eq {bs size index : Nat} (hb : bs < 2 ^ 32) (hs : size < 2 ^ 32)
    (h : index * bs + bs < 2 ^ 32 ∨ (index * bs < 2 ^ 32 ∧ size ≤ index * bs)) :
    taskRange (packSizes bs size) index
      = if index * bs < size then
          (if index * bs < min (index * bs + bs) size then some (index * bs, min (index * bs + bs) size) else none) else none := by
  obtain ⟨d1, d2⟩ := packSizes_decode hb hs
  unfold taskRange
  rw [d1, d2]
  dsimp only
  have hm : mul32 index bs = index * bs := mul32_eq (by omega)
  rw [hm]
  by_cases hi : index * bs < size
  · rw [if_pos hi]
    have ha : add32 (index * bs) bs = index * bs + bs := add32_eq (by omega)
    rw [ha]
    by_cases hc : index * bs < min (index * bs + bs) size
    · rw [if_pos hc, if_neg (by omega)]
    · rw [if_neg hc, if_pos (by omega)]
  · rw [if_neg hi, if_pos]
    exact le_trans (min_le_right _ _) (by omega)

/-- All packets of a launch with `n` blocks of `q` packets each, if they suffice -/
theorem launch_cover {size packet q n : Nat} (hp : 0 < packet) (hq : 0 < q) (hs : size < 2 ^ 32)
    (hbs : q * packet < 2 ^ 32) (hn : cdiv size packet ≤ n * q)
    (hov : ∀ i < n, i * (q * packet) + q * packet < 2 ^ 32 ∨ (i * (q * packet) < 2 ^ 32 ∧ size ≤ i * (q * packet))) :
    ((List.range n).map (taskPackets packet (packSizes (q * packet) size))).flatten
      = (List.range (cdiv size packet)).map (· * packet) := by
  have key := blocks_packets (size := size) hp hq n (taskPackets packet (packSizes (q * packet) size)) (by
    intro i hi
    have hr := taskRange_eq hbs hs (hov i hi)
    have hpos : 0 < q * packet := Nat.mul_pos hq hp
    unfold taskPackets
    by_cases h : i * (q * packet) < size
    · rw [if_pos h, if_pos (by omega)] at hr
      rw [hr, if_pos h, Option.elim_some]
    · rw [if_neg h] at hr
      rw [hr, if_neg h, Option.elim_none])
  rw [key, min_eq_right hn]

/-- **C21.**  Over all tasks of a launch (in whatever order they run), the kernel body is executed
exactly once for each packet `0, packet, 2 packet, ...` that starts below `size`, and for no other.
The conditions hold unless the number of elements is within a small distance from 2^32. -/
theorem C21_packets {size packet desired cores : Nat} (hp : 0 < packet) (hs : 0 < size) (hd : 0 < desired)
    (hdiv : packet ∣ desired) (h1 : size + desired ≤ 2 ^ 32) (h2 : size + (2 * cores + 1) * packet ≤ 2 ^ 32) :
    (launchPackets size packet desired cores).flatten = (List.range (cdiv size packet)).map (· * packet) := by
  have h3 : (2 * cores + 1) * packet = 2 * (cores * packet) + packet := by ring
  rw [h3] at h2
  have hpk : ceilDiv32 size packet = cdiv size packet := ceilDiv32_eq hp (by omega)
  have hclt := cdiv_mul_lt (a := size) hp
  have hcge := cdiv_mul_ge (a := size) hp
  have hcpos := cdiv_pos hs hp
  have hcle := cdiv_le_self (a := size) hp
  unfold launchPackets launchPlan
  dsimp only
  rw [hpk]
  by_cases c1 : cores ≤ 1
  · -- one block
    rw [if_pos c1]
    dsimp only
    simp only [List.range_one, List.map_cons, List.map_nil, List.flatten_cons, List.flatten_nil, List.append_nil]
    obtain ⟨d1, d2⟩ := packSizes_decode (b := size) (s := size) (by omega) (by omega)
    unfold taskPackets taskRange
    rw [d1, d2]
    have e1 : mul32 0 size = 0 := by simp [mul32]
    have e2 : add32 0 size = size := by rw [add32_eq] <;> omega
    dsimp only
    rw [e1, e2, min_self, if_neg (by omega)]
    simp [packetsOf]
  · rw [if_neg c1]
    by_cases c2 : cdiv size packet ≤ cores
    · rw [if_pos c2]
      dsimp only
      have := launch_cover (size := size) (packet := packet) (q := 1) (n := cdiv size packet) hp (by omega) (by omega) (by omega) (by omega)
        (fun i hi => Or.inl (by
          have : i * packet < size := (lt_cdiv hp).1 hi
          rw [Nat.one_mul]; omega))
      rw [Nat.one_mul] at this
      exact this
    · rw [if_neg c2]
      have hcp : cores * packet ≤ cdiv size packet * packet := Nat.mul_le_mul_right _ (by omega)
      by_cases c3 : size ≤ mul32 (mul32 desired cores) 2
      · rw [if_pos c3]
        dsimp only
        have hc0 : cores ≤ cores * packet := Nat.le_mul_of_pos_right _ hp
        have eb : mul32 2 cores = 2 * cores := mul32_eq (by omega)
        rw [eb]
        have eq : ceilDiv32 (cdiv size packet) (2 * cores) = cdiv (cdiv size packet) (2 * cores) := ceilDiv32_eq (by omega) (by omega)
        rw [eq]
        generalize hq : cdiv (cdiv size packet) (2 * cores) = q
        have q1 := cdiv_mul_ge (a := cdiv size packet) (b := 2 * cores) (by omega)
        have q2 := cdiv_mul_lt (a := cdiv size packet) (b := 2 * cores) (by omega)
        have q3 := cdiv_pos (b := 2 * cores) hcpos (by omega)
        rw [hq] at q1 q2 q3
        -- total number of elements covered
        have htot : 2 * cores * (q * packet) ≤ size + 2 * (cores * packet) + packet - 1 := by
          have : 2 * cores * (q * packet) = q * (2 * cores) * packet := by ring
          rw [this]
          have h4 : q * (2 * cores) * packet ≤ (cdiv size packet + 2 * cores - 1) * packet := Nat.mul_le_mul_right _ (by omega)
          have h5 : (cdiv size packet + 2 * cores - 1) * packet ≤ cdiv size packet * packet + 2 * (cores * packet) := by
            have : cdiv size packet * packet + 2 * (cores * packet) = (cdiv size packet + 2 * cores) * packet := by ring
            rw [this]
            exact Nat.mul_le_mul_right _ (by omega)
          omega
        have hqp : q * packet ≤ 2 * cores * (q * packet) := Nat.le_mul_of_pos_left _ (by omega)
        have em : mul32 q packet = q * packet := mul32_eq (by omega)
        rw [em]
        apply launch_cover hp q3 (by omega) (by omega)
        · rw [Nat.mul_comm]; exact q1
        · intro i hi
          left
          have : (i + 1) * (q * packet) ≤ 2 * cores * (q * packet) := Nat.mul_le_mul_right _ (by omega)
          rw [Nat.add_mul, Nat.one_mul] at this
          omega
      · rw [if_neg c3]
        dsimp only
        obtain ⟨q, hq⟩ := hdiv
        rw [Nat.mul_comm] at hq
        rw [ceilDiv32_eq hd h1]
        have hq0 : 0 < q := by
          rcases Nat.eq_zero_or_pos q with h | h
          · subst h; omega
          · exact h
        have hg := cdiv_mul_ge (a := size) hd
        have key := launch_cover (size := size) (packet := packet) (q := q) (n := cdiv size desired) hp hq0 (by omega) (by omega)
        rw [← hq] at key
        apply key
        · apply cdiv_le hp
          rw [Nat.mul_assoc, ← hq]; exact hg
        · intro i hi
          left
          have := (lt_cdiv (a := size) hd).1 hi
          omega

/-- **C21.**  Consequence: every element below `size` is processed by exactly one packet of exactly
one task, and a packet contains at most `packet - 1` elements beyond the end. -/
theorem C21_elements {size packet desired cores : Nat} (hp : 0 < packet) (hs : 0 < size) (hd : 0 < desired)
    (hdiv : packet ∣ desired) (h1 : size + desired ≤ 2 ^ 32) (h2 : size + (2 * cores + 1) * packet ≤ 2 ^ 32) :
    let all := (launchPackets size packet desired cores).flatten
    all.Nodup ∧ (∀ x, x < size → ∃! p, p ∈ all ∧ p ≤ x ∧ x < p + packet) ∧ (∀ p ∈ all, p < size ∧ packet ∣ p) := by
  intro all
  have hall : all = (List.range (cdiv size packet)).map (· * packet) := C21_packets hp hs hd hdiv h1 h2
  rw [hall]
  refine ⟨?_, ?_, ?_⟩
  · apply List.Nodup.map _ List.nodup_range
    intro a b h
    exact Nat.eq_of_mul_eq_mul_right hp h
  · intro x hx
    have hm := Nat.mod_lt x hp
    have hdm := Nat.div_add_mod x packet
    rw [Nat.mul_comm] at hdm
    refine ⟨x / packet * packet, ⟨?_, by omega, by omega⟩, ?_⟩
    · rw [List.mem_map]
      exact ⟨x / packet, List.mem_range.2 ((lt_cdiv hp).2 (by omega)), rfl⟩
    · rintro y ⟨hy, hy1, hy2⟩
      rw [List.mem_map] at hy
      obtain ⟨k, _, rfl⟩ := hy
      have : x / packet = k := by
        apply Nat.div_eq_of_lt_le
        · exact hy1
        · rw [Nat.add_mul]; omega
      rw [this]
  · intro p hp'
    rw [List.mem_map] at hp'
    obtain ⟨k, hk, rfl⟩ := hp'
    exact ⟨(lt_cdiv hp).1 (List.mem_range.1 hk), Dvd.intro_left k rfl⟩

/-- The conditions are met in practice -/
example : (launchPackets 1000000 8 16384 4).flatten = (List.range (cdiv 1000000 8)).map (· * 8) :=
  C21_packets (by omega) (by omega) (by omega) ⟨2048, rfl⟩ (by omega) (by omega)
example : launchPackets 100 8 16384 4 = [[0, 8], [16, 24], [32, 40], [48, 56], [64, 72], [80, 88], [96], []] := by decide +kernel

/-- **C21 fails** for sizes close to 2^32 (which are legal array sizes): the number of packets wraps
around to zero, and nothing is computed. -/
theorem C21_overflow : launchPackets (2 ^ 32 - 1) 8 16384 4 = [] := by decide +kernel

end Verif.Llvm
