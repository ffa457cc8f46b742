import Verif.GpuArr.Model
import Verif.CoopVec.MatProps

/-!
# C95: Code for local arrays on CUDA and Metal devices
-/
namespace Verif.GpuArr
open Verif.CoopVec (forN forN_inv)

variable {V S : Type}

theorem foldlM_range' (body : S → Nat → Option S) (n : Nat) : ∀ (k r : Nat) (s s' : S), r + (k + 1) = n → n < 2 ^ 32 →
    (DoWhile n body r s s' ↔ (List.range' r (k + 1)).foldlM body s = some s') := by
  intro k
  induction k with
  | zero =>
    intro r s s' hr hn
    have hex : ¬ (r + 1) % 2 ^ 32 < n := by omega
    constructor
    · intro h
      cases h with
      | exit h _ => simp [List.range', h]
      | again _ h _ => exact absurd h hex
    · intro h
      refine .exit ?_ hex
      simpa [List.range'] using h
  | succ k ih =>
    intro r s s' hr hn
    have hag : (r + 1) % 2 ^ 32 < n := by omega
    have hmod : (r + 1) % 2 ^ 32 = r + 1 := Nat.mod_eq_of_lt (by omega)
    rw [List.range'_succ, List.foldlM_cons]
    constructor
    · intro h
      cases h with
      | exit _ h => exact absurd hag h
      | again h _ h' =>
        rw [h]
        rw [hmod] at h'
        exact (ih (r + 1) _ _ (by omega) hn).1 h'
    · intro h
      cases hb : body s r with
      | none => rw [hb] at h; cases h
      | some s1 =>
        rw [hb] at h
        refine .again hb hag ?_
        rw [hmod]
        exact (ih (r + 1) _ _ (by omega) hn).2 h

/-- **C95 (loops).**  PTX loops visit the elements of an array (which has at least one) once and in order, as the loops of Metal code do. -/
theorem C95_loop (cuda : Bool) {n : Nat} (h0 : 0 < n) (hn : n < 2 ^ 32) (body : S → Nat → Option S) (s s' : S) :
    Loop cuda n body s s' ↔ forN n s body = some s' := by
  unfold Loop
  cases cuda with
  | false => exact Iff.rfl
  | true =>
    rw [if_pos rfl]
    obtain ⟨k, rfl⟩ : ∃ k, n = k + 1 := ⟨n - 1, by omega⟩
    rw [foldlM_range' body (k + 1) k 0 s s' (by omega) hn]
    unfold forN
    rw [List.range_eq_range']

theorem loop_inv (cuda : Bool) {n : Nat} (h0 : 0 < n) (hn : n < 2 ^ 32) {body : S → Nat → Option S} {s : S} (P : Nat → S → Prop) (hs : P 0 s)
    (hb : ∀ k s, k < n → P k s → ∃ s', body s k = some s' ∧ P (k + 1) s') : ∃ s1, P n s1 ∧ ∀ s', Loop cuda n body s s' ↔ s' = s1 := by
  obtain ⟨s1, h1, h2⟩ := forN_inv P hs hb
  refine ⟨s1, h2, fun s' => ?_⟩
  rw [C95_loop cuda h0 hn, h1]
  exact ⟨fun h => (Option.some.inj h).symm, fun h => by rw [h]⟩

/-- Local memory in which the first `k` elements of buffer `b` are those of `a` -/
def fill (m : Local V) (b k : Nat) (a : Nat → V) : Local V := fun b' i => if b' = b ∧ i < k then a i else m b' i

theorem st_fill {len : Nat} {m : Local V} {b k : Nat} {a : Nat → V} (hk : k < len) : st len (fill m b k a) b k (a k) = some (fill m b (k + 1) a) := by
  unfold st
  rw [if_pos hk]
  congr 1
  funext b' i
  unfold fill
  by_cases hb : b' = b
  · subst hb
    rw [Function.update_self]
    by_cases hi : i = k
    · subst hi
      rw [Function.update_self, if_pos ⟨rfl, by omega⟩]
    · rw [Function.update_of_ne hi]
      by_cases h : i < k
      · rw [if_pos ⟨rfl, h⟩, if_pos ⟨rfl, by omega⟩]
      · rw [if_neg (fun h' => h h'.2), if_neg (fun h' => by omega)]
  · rw [Function.update_of_ne hb, if_neg (fun h => hb h.1), if_neg (fun h => hb h.1)]

theorem fill_zero (m : Local V) (b : Nat) (a : Nat → V) : fill m b 0 a = m := by
  funext b' i; unfold fill; rw [if_neg (fun h => by omega)]

/-- **C95 (initialisation).**  All elements of the buffer are set, other buffers are unchanged. -/
theorem C95_init (cuda : Bool) {len : Nat} (h0 : 0 < len) (hn : len < 2 ^ 16) (b : Nat) (v : V) (m m' : Local V) :
    Init cuda len b v m m' ↔ m' = fun b' i => if b' = b ∧ i < len then v else m b' i := by
  unfold Init
  obtain ⟨s1, h1, h2⟩ := loop_inv cuda h0 (by omega) (body := initBody len b v) (s := m) (fun k s => s = fill m b k fun _ => v) (fill_zero m b _).symm
    (fun k s hk hs => ⟨_, by subst hs; exact st_fill hk, rfl⟩)
  rw [h2 m', h1]; rfl

/-- **C95 (reads).**  A read returns the element, or zero if the mask is not set. -/
theorem C95_read (zero : V) {len : Nat} (m : Local V) (b : Nat) (mask : Option Bool) (offset : Nat) (ho : mask ≠ some false → offset < len) :
    read zero len m b mask offset = some (if mask = some false then zero else m b offset) := by
  unfold read ld
  match mask with
  | none => dsimp only; rw [if_pos (ho (by simp)), if_neg (by simp)]
  | some true => dsimp only; rw [if_pos rfl, if_pos (ho (by simp)), if_neg (by simp)]
  | some false => dsimp only; rw [if_neg (by simp), if_pos rfl]

theorem copy_loop (cuda : Bool) {len : Nat} (h0 : 0 < len) (hn : len < 2 ^ 16) (src dst : Nat) (m m' : Local V) :
    Loop cuda len (copyBody len src dst) m m' ↔ m' = fill m dst len (m src) := by
  obtain ⟨s1, h1, h2⟩ := loop_inv cuda h0 (by omega) (body := copyBody len src dst) (s := m) (fun k s => s = fill m dst k (m src)) (fill_zero m dst _).symm
    (fun k s hk hs => ⟨_, by
      subst hs
      unfold copyBody ld
      rw [if_pos hk, Option.bind_some]
      have : fill m dst k (m src) src k = m src k := by unfold fill; rw [if_neg (fun h => by omega)]
      rw [this]
      exact st_fill hk, rfl⟩)
  rw [h2 m', h1]

/-- **C95 (writes).**  The buffer of the result holds the elements of the target, except for the one at the given offset, which has the new value if the mask is set.  If the
target is still needed, it is unchanged (unless its buffer is reused), and so are all other buffers. -/
theorem C95_write (cuda : Bool) {len : Nat} (h0 : 0 < len) (hn : len < 2 ^ 16) (copy : Bool) (target buffer : Nat) (mask : Option Bool) (offset : Nat)
    (ho : mask ≠ some false → offset < len) (v : V) (m m' : Local V) (out : Nat) :
    Write cuda len copy target buffer mask offset v m m' out ↔
      out = (if copy then buffer else target) ∧ ∀ b i, m' b i =
        if b = out then (if i = offset ∧ mask ≠ some false then v else if i < len then m target i else m b i) else m b i := by
  have key : ∀ m1 : Local V, (∀ b i, m1 b i = if b = out then (if i < len then m target i else m b i) else m b i) →
      ((if mask = some false then some m1 else st len m1 out offset v) = some m' ↔ ∀ b i, m' b i =
        if b = out then (if i = offset ∧ mask ≠ some false then v else if i < len then m target i else m b i) else m b i) := by
    intro m1 hm1
    by_cases hk : mask = some false
    · rw [if_pos hk]
      constructor
      · intro h b i
        rw [← Option.some.inj h, hm1, if_neg (c := i = offset ∧ mask ≠ some false) (fun h => h.2 hk)]
      · intro h
        congr 1; funext b i
        rw [h b i, hm1, if_neg (c := i = offset ∧ mask ≠ some false) (fun h => h.2 hk)]
    · rw [if_neg hk]
      unfold st
      rw [if_pos (ho hk)]
      have e : ∀ b i, (Function.update m1 out (Function.update (m1 out) offset v)) b i =
          if b = out then (if i = offset ∧ mask ≠ some false then v else if i < len then m target i else m b i) else m b i := by
        intro b i
        by_cases hb : b = out
        · subst hb
          rw [Function.update_self, if_pos rfl]
          by_cases hi : i = offset
          · rw [hi, Function.update_self, if_pos ⟨rfl, hk⟩]
          · rw [Function.update_of_ne hi, if_neg (fun h => hi h.1), hm1, if_pos rfl]
        · rw [Function.update_of_ne hb, if_neg hb, hm1, if_neg hb]
      constructor
      · intro h b i
        rw [← Option.some.inj h]; exact e b i
      · intro h
        congr 1; funext b i
        rw [h b i]; exact e b i
  unfold Write
  refine and_congr_right fun hout => ?_
  cases copy with
  | false =>
    simp only [Bool.false_eq_true, if_false] at hout ⊢
    constructor
    · rintro ⟨m1, rfl, h⟩
      refine (key _ fun b i => ?_).1 h
      by_cases hb : b = out
      · rw [if_pos hb, hb, ← hout, ite_self]
      · rw [if_neg hb]
    · intro h
      refine ⟨m, rfl, (key _ fun b i => ?_).2 h⟩
      by_cases hb : b = out
      · rw [if_pos hb, hb, ← hout, ite_self]
      · rw [if_neg hb]
  | true =>
    simp only [if_true] at hout ⊢
    subst hout
    have hf : ∀ b i, fill m out len (m target) b i = if b = out then (if i < len then m target i else m b i) else m b i := by
      intro b i
      unfold fill
      by_cases hb : b = out
      · rw [if_pos hb]
        by_cases hi : i < len
        · rw [if_pos ⟨hb, hi⟩, if_pos hi]
        · rw [if_neg (fun h => hi h.2), if_neg hi]
      · rw [if_neg (fun h => hb h.1), if_neg hb]
    constructor
    · rintro ⟨m1, h1, h⟩
      rw [copy_loop cuda h0 hn] at h1
      subst h1
      exact (key _ hf).1 h
    · intro h
      exact ⟨_, (copy_loop cuda h0 hn _ _ _ _).2 rfl, (key _ hf).2 h⟩

/-- **C95 (selection).**  The buffer of the result holds the elements of the selected array, also if it is the buffer of one of the operands; other buffers are
unchanged. -/
theorem C95_select (cuda : Bool) {len : Nat} (h0 : 0 < len) (hn : len < 2 ^ 16) (mask : Bool) (t f dst : Nat) (m m' : Local V) :
    Select cuda len mask t f dst m m' ↔ m' = fun b i => if b = dst ∧ i < len then m (if mask then t else f) i else m b i := by
  unfold Select
  cases cuda with
  | false =>
    rw [if_neg (by simp), copy_loop false h0 hn]; rfl
  | true =>
    rw [if_pos rfl]
    obtain ⟨s1, h1, h2⟩ := loop_inv true h0 (by omega) (body := cudaSelectBody len mask t f dst) (s := m) (fun k s => s = fill m dst k (m (if mask then t else f)))
      (fill_zero m dst _).symm (fun k s hk hs => ⟨_, by
        subst hs
        unfold cudaSelectBody ld
        rw [if_pos hk, if_pos hk, Option.bind_some, Option.bind_some]
        have : ∀ src, fill m dst k (m (if mask then t else f)) src k = m src k := fun src => by unfold fill; rw [if_neg (fun h => by omega)]
        rw [this, this]
        have e : (if mask = true then m t k else m f k) = m (if mask then t else f) k := by cases mask <;> rfl
        rw [e]
        exact st_fill hk, rfl⟩)
    rw [h2 m', h1]; rfl

/-! ### Evaluated arrays -/

/-- Element `i` of thread `t` of an evaluated array follows all elements with smaller `i`. -/
def place (base size tsize t i : Nat) : Nat := base + (i * size + t) * tsize

/-- Where evaluated arrays may be placed -/
structure Fits (cuda : Bool) (len base size tsize : Nat) : Prop where
  len0 : 0 < len
  len16 : len < 2 ^ 16
  addr : base + size * len * tsize < 2 ^ 64
  idx : cuda = false → size * len ≤ 2 ^ 32

theorem place_lt {size len t i : Nat} (ht : t < size) (hi : i < len) : i * size + t < size * len := by
  have h : (i + 1) * size ≤ len * size := Nat.mul_le_mul_right _ hi
  rw [Nat.succ_mul] at h
  rw [Nat.mul_comm size len]
  omega

theorem place_inj {base size tsize t t' i i' : Nat} (hz : 0 < tsize) (ht : t < size) (ht' : t' < size) (h : place base size tsize t i = place base size tsize t' i') :
    t = t' ∧ i = i' := by
  unfold place at h
  have h1 : i * size + t = i' * size + t' := Nat.eq_of_mul_eq_mul_right hz (by omega)
  have e1 : (i * size + t) / size = i := by rw [Nat.mul_comm, Nat.mul_add_div (by omega), Nat.div_eq_of_lt ht, Nat.add_zero]
  have e2 : (i' * size + t') / size = i' := by rw [Nat.mul_comm, Nat.mul_add_div (by omega), Nat.div_eq_of_lt ht', Nat.add_zero]
  have hi : i = i' := by rw [← e1, ← e2, h1]
  subst hi
  exact ⟨by omega, rfl⟩

theorem cuda_addr {len base size tsize t i : Nat} (ht : t < size) (hi : i < len) (ha : base + size * len * tsize < 2 ^ 64) : place base size tsize t i < 2 ^ 64 := by
  have h := Nat.mul_le_mul_right tsize (Nat.le_of_lt (place_lt ht hi))
  unfold place; omega

theorem place_succ (base size tsize t i : Nat) : size * tsize + place base size tsize t i = place base size tsize t (i + 1) := by
  unfold place
  rw [Nat.succ_mul, Nat.add_mul, Nat.add_mul, Nat.add_mul]; omega

theorem metal_addr {len base size tsize t i : Nat} (ht : t < size) (hi : i < len) (h : size * len ≤ 2 ^ 32) :
    base + tsize * ((i * size % 2 ^ 32 + t) % 2 ^ 32) = place base size tsize t i := by
  have := place_lt ht hi
  unfold place
  rw [Nat.mod_eq_of_lt (a := i * size) (by omega), Nat.mod_eq_of_lt (a := i * size + t) (by omega), Nat.mul_comm]

/-- `%rd0` before iteration `k`; the value after the last iteration is not used. -/
def rdAt (base size tsize t k : Nat) : Nat := place base size tsize t k % 2 ^ 64

theorem rdAt_succ (base size tsize t k : Nat) : (size * tsize + rdAt base size tsize t k) % 2 ^ 64 = rdAt base size tsize t (k + 1) := by
  unfold rdAt
  rw [← place_succ, Nat.add_mod_mod]

/-- The stores of a thread: each element is stored once, at its place. -/
theorem C95_out (cuda : Bool) {len base size tsize : Nat} (hf : Fits cuda len base size tsize) (b : Nat) {t : Nat} (ht : t < size) (m : Local V) (ws : List (Nat × V)) :
    CopyOut cuda len b base size tsize t m ws ↔ ws = (List.range len).map fun i => (place base size tsize t i, m b i) := by
  have hl := hf.len16
  unfold CopyOut
  cases cuda with
  | true =>
    rw [if_pos rfl]
    obtain ⟨s1, h1, h2⟩ := loop_inv true hf.len0 (by omega) (body := cudaOutBody len b size tsize m) (s := ((t * tsize + base) % 2 ^ 64, []))
      (fun k s => s = (rdAt base size tsize t k, (List.range k).map fun i => (place base size tsize t i, m b i)))
      (by unfold rdAt place; rw [Nat.zero_mul, Nat.zero_add, Nat.add_comm base]; rfl)
      (fun k s hk hs => ⟨_, by
        subst hs
        unfold cudaOutBody ld
        rw [if_pos hk, Option.map_some]
        dsimp only
        rw [rdAt_succ, List.range_succ, List.map_append]
        have : rdAt base size tsize t k = place base size tsize t k := Nat.mod_eq_of_lt (cuda_addr ht hk hf.addr)
        rw [this]
        rfl, rfl⟩)
    constructor
    · rintro ⟨rd, h⟩
      have := (h2 _).1 h
      rw [h1] at this
      exact (Prod.mk.inj this).2
    · intro h
      exact ⟨s1.1, (h2 _).2 (by rw [h, h1])⟩
  | false =>
    rw [if_neg (by simp)]
    obtain ⟨s1, h1, h2⟩ := loop_inv false hf.len0 (by omega) (body := metalOutBody len b base size tsize t m) (s := [])
      (fun k s => s = (List.range k).map fun i => (place base size tsize t i, m b i)) rfl
      (fun k s hk hs => ⟨_, by
        subst hs
        unfold metalOutBody ld
        rw [if_pos hk, Option.map_some, metal_addr ht hk (hf.idx rfl), List.range_succ, List.map_append]
        rfl, rfl⟩)
    rw [h2 ws, h1]

/-- Loading: the elements found in memory are those of the buffer. -/
theorem C95_in (cuda : Bool) {len base size tsize : Nat} (hf : Fits cuda len base size tsize) (b : Nat) {t : Nat} (ht : t < size) {mem : Nat → Option V} {a : Nat → V}
    (ha : ∀ i < len, mem (place base size tsize t i) = some (a i)) (m m' : Local V) :
    CopyIn cuda mem len b base size size tsize t m m' ↔ m' = fun b' i => if b' = b ∧ i < len then a i else m b' i := by
  have hl := hf.len16
  unfold CopyIn
  cases cuda with
  | true =>
    rw [if_pos rfl]
    have hstart : (if size > 1 then (t * tsize + base) % 2 ^ 64 else base) = rdAt base size tsize t 0 := by
      unfold rdAt place
      by_cases h1 : size > 1
      · rw [if_pos h1, Nat.zero_mul, Nat.zero_add, Nat.add_comm]
      · rw [if_neg h1]
        have : t = 0 := by omega
        rw [this, Nat.zero_mul, Nat.zero_add, Nat.zero_mul, Nat.add_zero, Nat.mod_eq_of_lt (by have := hf.addr; omega)]
    obtain ⟨s1, h1, h2⟩ := loop_inv true hf.len0 (by omega) (body := cudaInBody mem len b size tsize)
      (s := ⟨if size > 1 then (t * tsize + base) % 2 ^ 64 else base, m⟩)
      (fun k s => s = ⟨rdAt base size tsize t k, fill m b k a⟩) (by rw [hstart, fill_zero])
      (fun k s hk hs => ⟨_, by
        subst hs
        unfold cudaInBody
        dsimp only
        have : rdAt base size tsize t k = place base size tsize t k := Nat.mod_eq_of_lt (cuda_addr ht hk hf.addr)
        rw [rdAt_succ, this, ha k hk, Option.bind_some, st_fill hk]
        rfl, rfl⟩)
    constructor
    · rintro ⟨rd, h⟩
      have := (h2 _).1 h
      rw [h1] at this
      exact (Regs.mk.inj this).2
    · intro h
      exact ⟨s1.rd0, (h2 _).2 (by rw [h, h1]; rfl)⟩
  | false =>
    rw [if_neg (by simp)]
    obtain ⟨s1, h1, h2⟩ := loop_inv false hf.len0 (by omega) (body := metalInBody mem len b base size tsize t) (s := m)
      (fun k s => s = fill m b k a) (fill_zero m b _).symm
      (fun k s hk hs => ⟨_, by
        subst hs
        unfold metalInBody
        rw [metal_addr ht hk (hf.idx rfl), ha k hk, Option.bind_some]
        exact st_fill hk, rfl⟩)
    rw [h2 m', h1]; rfl

theorem stores_other (a : Nat) (ws : List (Nat × V)) : ∀ (mem : Nat → Option V), (∀ w ∈ ws, w.1 ≠ a) → exec mem ws a = mem a := by
  unfold exec
  induction ws with
  | nil => intro mem _; rfl
  | cons x l ihl =>
    intro mem hl
    rw [List.foldl_cons, ihl _ fun w' hw' => hl w' (List.mem_cons_of_mem _ hw'), Function.update_of_ne (hl x List.mem_cons_self).symm]

theorem stores_of_mem (ws : List (Nat × V)) (a : Nat) (v : V) : ∀ (mem : Nat → Option V), (a, v) ∈ ws → (∀ w ∈ ws, w.1 = a → w.2 = v) → exec mem ws a = some v := by
  induction ws with
  | nil => intro mem hm; cases hm
  | cons w ws ih =>
    intro mem hm hu
    show exec (Function.update mem w.1 (some w.2)) ws a = some v
    by_cases h : (a, v) ∈ ws
    · exact ih _ h fun w' hw' => hu w' (List.mem_cons_of_mem _ hw')
    · have hw : w = (a, v) := by
        rcases List.mem_cons.1 hm with h' | h'
        · exact h'.symm
        · exact absurd h' h
      have hno : ∀ w' ∈ ws, w'.1 ≠ a := fun w' hw' e => by
        have := hu w' (List.mem_cons_of_mem _ hw') e
        exact h (by rw [← e, ← this]; exact hw')
      rw [stores_other a ws _ hno, hw, Function.update_self]

/-- **C95 (evaluation).**  When the threads of a kernel have stored their arrays, in whatever order, each element is found at its place, and nothing else has changed. -/
theorem C95_store_partial (cuda : Bool) {len base size tsize : Nat} (hf : Fits cuda len base size tsize) (hz : 0 < tsize) (b : Nat) (arr : Nat → Local V)
    {mem mem' : Nat → Option V} (h : Launch cuda len base size tsize b arr mem mem') :
    (∀ t i, t < size → i < len → mem' (place base size tsize t i) = some (arr t b i))
      ∧ ∀ a, (∀ t i, t < size → i < len → place base size tsize t i ≠ a) → mem' a = mem a := by
  obtain ⟨wss, ws, h1, h2, rfl⟩ := h
  have hmem : ∀ w, w ∈ ws ↔ ∃ t i, t < size ∧ i < len ∧ w = (place base size tsize t i, arr t b i) := by
    intro w
    rw [h2.mem_iff, List.mem_flatMap]
    constructor
    · rintro ⟨t, ht, hw⟩
      have ht := List.mem_range.1 ht
      rw [(C95_out cuda hf b ht (arr t) (wss t)).1 (h1 t ht)] at hw
      obtain ⟨i, hi, rfl⟩ := List.mem_map.1 hw
      exact ⟨t, i, ht, List.mem_range.1 hi, rfl⟩
    · rintro ⟨t, i, ht, hi, rfl⟩
      refine ⟨t, List.mem_range.2 ht, ?_⟩
      rw [(C95_out cuda hf b ht (arr t) (wss t)).1 (h1 t ht)]
      exact List.mem_map.2 ⟨i, List.mem_range.2 hi, rfl⟩
  refine ⟨fun t i ht hi => stores_of_mem ws _ _ mem ((hmem _).2 ⟨t, i, ht, hi, rfl⟩) fun w hw e => ?_, fun a ha => stores_other a ws mem fun w hw e => ?_⟩
  · obtain ⟨t', i', ht', hi', rfl⟩ := (hmem w).1 hw
    obtain ⟨rfl, rfl⟩ := place_inj hz ht' ht e
    rfl
  · obtain ⟨t', i', ht', hi', rfl⟩ := (hmem w).1 hw
    exact ha t' i' ht' hi' e

/-- Such launches exist. -/
theorem C95_store_exists (cuda : Bool) {len base size tsize : Nat} (hf : Fits cuda len base size tsize) (b : Nat) (arr : Nat → Local V) (mem : Nat → Option V) :
    ∃ mem', Launch cuda len base size tsize b arr mem mem' :=
  ⟨_, fun t => (List.range len).map fun i => (place base size tsize t i, arr t b i), _, fun t ht => (C95_out cuda hf b ht _ _).2 rfl, List.Perm.refl _, rfl⟩

/-- **C95 (round trip).**  An array that is evaluated and then used by a kernel of the same size has the same elements in each thread. -/
theorem C95_roundtrip_partial (cuda : Bool) {len base size tsize : Nat} (hf : Fits cuda len base size tsize) (hz : 0 < tsize) (b b' : Nat) (arr : Nat → Local V)
    {mem mem' : Nat → Option V} (h : Launch cuda len base size tsize b arr mem mem') {t : Nat} (ht : t < size) (m m' : Local V) :
    CopyIn cuda mem' len b' base size size tsize t m m' ↔ m' = fun c i => if c = b' ∧ i < len then arr t b i else m c i :=
  C95_in cuda hf b' ht (fun i hi => (C95_store_partial cuda hf hz b arr h).1 t i ht hi) m m'

/-- **C95 fails** for evaluated arrays of size 1 that are used by larger kernels: the distance of elements is the size of the kernel instead of 1.  Here, an array with two
elements per thread, of which there is one, is loaded by a kernel with 2 threads: thread 0 reads behind the end of the array. -/
theorem C95_single_counterexample (cuda : Bool) (a0 a1 : V) (m m' : Local V) :
    ¬ CopyIn cuda (fun a => if a = 1024 then some a0 else if a = 1028 then some a1 else none) 2 0 1024 1 2 4 0 m m' := by
  intro h
  unfold CopyIn at h
  cases cuda with
  | true =>
    rw [if_pos rfl] at h
    obtain ⟨rd, h⟩ := h
    rw [C95_loop true (by decide) (by decide)] at h
    simp [forN, List.range_succ, cudaInBody, st] at h
  | false =>
    rw [if_neg (by simp), C95_loop false (by decide) (by decide)] at h
    simp [forN, List.range_succ, metalInBody, st] at h

/-- **C95 fails** on Metal devices for arrays with more than 2^32 elements in all threads: positions are 32-bit numbers.  Here, elements 0 and 2 of each thread are loaded
from the same place. -/
theorem C95_wrap_counterexample (mem : Nat → Option V) (base tsize t : Nat) (m m' : Local V) (h : CopyIn false mem 3 0 base (2 ^ 31) (2 ^ 31) tsize t m m') :
    m' 0 0 = m' 0 2 := by
  unfold CopyIn at h
  rw [if_neg (by simp), C95_loop false (by decide) (by decide)] at h
  have e0 : (0 * 2 ^ 31 % 2 ^ 32 + t) % 2 ^ 32 = t % 2 ^ 32 := by omega
  have e2 : (2 * 2 ^ 31 % 2 ^ 32 + t) % 2 ^ 32 = t % 2 ^ 32 := by omega
  unfold forN at h
  rw [show List.range 3 = [0, 1, 2] from rfl] at h
  simp only [List.foldlM_cons, List.foldlM_nil] at h
  unfold metalInBody st at h
  rw [e0, e2] at h
  cases h0 : mem (base + tsize * (t % 2 ^ 32)) with
  | none => rw [h0] at h; simp at h
  | some v =>
    rw [h0] at h
    cases h1 : mem (base + tsize * ((1 * 2 ^ 31 % 2 ^ 32 + t) % 2 ^ 32)) with
    | none => rw [h1] at h; simp at h
    | some v1 =>
      rw [h1] at h
      simp at h
      rw [← h]
      simp [Function.update]

/-- Arrays with 3 elements in 5 threads -/
example : Fits false 3 4096 5 8 ∧ Fits true 3 4096 5 8 ∧ place 4096 5 8 2 1 = 4096 + 56 := ⟨⟨by decide, by decide, by decide, fun _ => by decide⟩, ⟨by decide, by decide, by decide, fun _ => by decide⟩, by decide⟩

/-- A masked write to a copy: the target (buffer 0) keeps its elements, the result (buffer 1) holds the new one. -/
example : ∃ m' : Local Nat, Write true 4 true 0 1 (some true) 2 99 (fun _ i => i) m' 1 ∧ m' 1 2 = 99 ∧ m' 1 3 = 3 ∧ m' 0 2 = 2 :=
  ⟨fun b i => if b = 1 then (if i = 2 ∧ some true ≠ some false then 99 else if i < 4 then i else i) else i,
    (C95_write true (by decide) (by decide) true 0 1 (some true) 2 (fun _ => by decide) 99 _ _ 1).2 ⟨rfl, fun _ _ => rfl⟩, by decide, by decide, by decide⟩

/-- Loads of the kind considered by `C95_wrap_counterexample` exist. -/
example (m : Local Nat) : ∃ m', CopyIn false (fun _ => some 5) 3 0 4096 (2 ^ 31) (2 ^ 31) 4 7 m m' := by
  obtain ⟨s1, -, h⟩ := loop_inv false (n := 3) (by decide) (by decide) (body := metalInBody (fun _ => some 5) 3 0 4096 (2 ^ 31) 4 7) (s := m) (fun _ _ => True) trivial
    (fun k s hk _ => ⟨_, by unfold metalInBody st; rw [Option.bind_some, if_pos hk], trivial⟩)
  exact ⟨s1, (h s1).2 rfl⟩

end Verif.GpuArr
