import Verif.Atomic.Reduce

/-!
# Exchanges and increments have the effect of their lanes
-/
namespace Verif.Atomic

variable {V : Type}

/-- Order on values for programs without loads: nothing is known -/
abbrev anyLe : V → V → Prop := fun _ _ => True

/-- Active lanes return what the operation says, the others return `zero`. -/
def OutOK {R : Type} (zero : R) (w : Nat) (mask : Nat → Bool) (t k : Nat) (out : Nat → R) (past : List (LaneId × R)) : Prop :=
  ∀ i, i < w → (mask i = true → ((t, k, i), out i) ∈ past) ∧ (mask i = false → out i = zero)

theorem OutOK.mono {R : Type} {zero : R} {w : Nat} {mask : Nat → Bool} {t k : Nat} {out : Nat → R} {l l' : List (LaneId × R)}
    (hl : l ⊆ l') (h : OutOK zero w mask t k out l) : OutOK zero w mask t k out l' :=
  fun i hi => ⟨fun hm => hl ((h i hi).1 hm), (h i hi).2⟩

/-! ### Exchange -/

def exchLane (p : Packet V) (t k i : Nat) : LaneOp LaneId V V :=
  { lane := (t, k, i), entry := p.index i, act := opExch (p.val i) }

theorem exchLoop_lin {zero : V} {t : Target} (ht : t.OK) {p : Packet V} {w : Nat}
    (hi : ∀ i, i < w → p.mask i = true → p.index i < t.size) (a k n : Nat) (hn : n ≤ w) (out : Nat → V)
    (past : List (LaneId × V)) (hd : ∀ i, i < w - n → (p.mask i = true → ((a, k, i), out i) ∈ past) ∧ (p.mask i = false → out i = zero)) :
    Lin anyLe t.addr (OutOK zero w p.mask a k) (exchLoop zero false (t.ptr p) p.val p.mask w n out)
      (((List.range' (w - n) n).filter p.mask).map (exchLane p a k)) past := by
  induction n generalizing out past with
  | zero => exact ⟨fun o ho => by simp at ho, fun i hi => hd i (by omega)⟩
  | succ n ih =>
    unfold exchLoop
    have e : List.range' (w - (n + 1)) (n + 1) = (w - (n + 1)) :: List.range' (w - n) n := by
      rw [List.range'_succ, show w - (n + 1) + 1 = w - n by omega]
    rw [e, List.filter_cons]
    by_cases hm : p.mask (w - (n + 1)) = true
    · simp only [Bool.false_or, if_pos hm]
      rw [List.map_cons]
      refine ⟨[exchLane p a k (w - (n + 1))], _, p.index (w - (n + 1)), List.Perm.refl _,
        (ptr_addr ht (hi _ (by omega) hm)).symm, ?_, fun v => ⟨rfl, ?_⟩⟩
      · intro y hy
        rw [List.mem_singleton.1 hy]; rfl
      · refine ih (by omega) _ _ ?_
        intro i hi'
        by_cases e : i = w - (n + 1)
        · subst e
          rw [if_pos rfl]
          exact ⟨fun _ => List.mem_append_right _ (List.mem_cons_self ..), fun hc => by rw [hm] at hc; cases hc⟩
        · rw [if_neg e]
          have := hd i (by omega)
          exact ⟨fun h => List.mem_append_left _ (this.1 h), this.2⟩
    · simp only [Bool.false_or, if_neg hm]
      refine ih (by omega) _ _ ?_
      intro i hi'
      by_cases e : i = w - (n + 1)
      · subst e
        rw [if_pos rfl]
        exact ⟨fun h => absurd h hm, fun _ => rfl⟩
      · rw [if_neg e]
        exact hd i (by omega)

theorem exch_lin {zero : V} {t : Target} (ht : t.OK) {p : Packet V} {w : Nat}
    (hi : ∀ i, i < w → p.mask i = true → p.index i < t.size) (a k : Nat) :
    Lin anyLe t.addr (OutOK zero w p.mask a k) (exch zero false t w p)
      (packetOps w Packet.index Packet.mask (fun p i => opExch (p.val i)) a k p) [] := by
  have := exchLoop_lin (zero := zero) ht hi a k w (Nat.le_refl _) (fun _ => zero) [] (fun i hi => absurd hi (by omega))
  rw [Nat.sub_self, ← List.range_eq_range'] at this
  exact this

/-! ### Compare and exchange -/

def casLane [DecidableEq V] (cmp : Nat → V) (p : Packet V) (t k i : Nat) : LaneOp LaneId V (V × Bool) :=
  { lane := (t, k, i), entry := p.index i, act := opCas (cmp i) (p.val i) }

theorem casLoop_lin [DecidableEq V] {zero : V} {t : Target} (ht : t.OK) {cmp : Nat → V} {p : Packet V} {w : Nat}
    (hi : ∀ i, i < w → p.mask i = true → p.index i < t.size) (a k n : Nat) (hn : n ≤ w) (out : (Nat → V) × (Nat → Bool))
    (past : List (LaneId × (V × Bool)))
    (hd : ∀ i, i < w - n → (p.mask i = true → ((a, k, i), (out.1 i, out.2 i)) ∈ past) ∧
      (p.mask i = false → (out.1 i, out.2 i) = (zero, false))) :
    Lin anyLe t.addr (fun o => OutOK (zero, false) w p.mask a k fun i => (o.1 i, o.2 i))
      (casLoop zero false (t.ptr p) cmp p.val p.mask w n out)
      (((List.range' (w - n) n).filter p.mask).map (casLane cmp p a k)) past := by
  induction n generalizing out past with
  | zero => exact ⟨fun o ho => by simp at ho, fun i hi => hd i (by omega)⟩
  | succ n ih =>
    unfold casLoop
    have e : List.range' (w - (n + 1)) (n + 1) = (w - (n + 1)) :: List.range' (w - n) n := by
      rw [List.range'_succ, show w - (n + 1) + 1 = w - n by omega]
    rw [e, List.filter_cons]
    by_cases hm : p.mask (w - (n + 1)) = true
    · simp only [Bool.false_or, if_pos hm]
      rw [List.map_cons]
      refine ⟨[casLane cmp p a k (w - (n + 1))], _, p.index (w - (n + 1)), List.Perm.refl _,
        (ptr_addr ht (hi _ (by omega) hm)).symm, ?_, fun v => ⟨rfl, ?_⟩⟩
      · intro y hy
        rw [List.mem_singleton.1 hy]; rfl
      · refine ih (by omega) _ _ ?_
        intro i hi'
        dsimp only
        by_cases e : i = w - (n + 1)
        · subst e
          rw [if_pos rfl, if_pos rfl]
          exact ⟨fun _ => List.mem_append_right _ (List.mem_cons_self ..), fun hc => by rw [hm] at hc; cases hc⟩
        · rw [if_neg e, if_neg e]
          have := hd i (by omega)
          exact ⟨fun h => List.mem_append_left _ (this.1 h), this.2⟩
    · simp only [Bool.false_or, if_neg hm]
      refine ih (by omega) _ _ ?_
      intro i hi'
      dsimp only
      by_cases e : i = w - (n + 1)
      · subst e
        rw [if_pos rfl, if_pos rfl]
        exact ⟨fun h => absurd h hm, fun _ => rfl⟩
      · rw [if_neg e, if_neg e]
        exact hd i (by omega)

theorem cas_lin [DecidableEq V] {zero : V} {t : Target} (ht : t.OK) {cmp : Nat → V} {p : Packet V} {w : Nat}
    (hi : ∀ i, i < w → p.mask i = true → p.index i < t.size) (a k : Nat) :
    Lin anyLe t.addr (fun o => OutOK (zero, false) w p.mask a k fun i => (o.1 i, o.2 i)) (cas zero false t w cmp p)
      (((List.range w).filter p.mask).map (casLane cmp p a k)) [] := by
  have := casLoop_lin (zero := zero) (cmp := cmp) ht hi a k w (Nat.le_refl _) (fun _ => zero, fun _ => false) []
    (fun i hi => absurd hi (by omega))
  rw [Nat.sub_self, ← List.range_eq_range'] at this
  exact this

/-! ### Increment -/

/-- The elements of a list get consecutive numbers. -/
def number : List Nat → Nat → (Nat → BitVec 32) → (Nat → BitVec 32)
  | [], _, out => out
  | i :: is, a, out => number is (a + 1) fun j => if j = i then BitVec.ofNat 32 a else out j

theorem number_not_mem {is : List Nat} {a : Nat} {out : Nat → BitVec 32} {j : Nat} (h : j ∉ is) : number is a out j = out j := by
  induction is generalizing a out with
  | nil => rfl
  | cons i is ih =>
    rw [number, ih (fun hc => h (List.mem_cons_of_mem _ hc)), if_neg]
    rintro rfl
    exact h (List.mem_cons_self ..)

theorem number_get {is : List Nat} (hn : is.Nodup) {a m : Nat} {out : Nat → BitVec 32} {j : Nat} (h : is[m]? = some j) :
    number is a out j = BitVec.ofNat 32 (a + m) := by
  induction is generalizing a out m with
  | nil => cases h
  | cons i is ih =>
    obtain ⟨h1, h2⟩ := List.nodup_cons.1 hn
    cases m with
    | zero => cases h; rw [number, number_not_mem h1, if_pos rfl, Nat.add_zero]
    | succ m =>
      rw [number, ih h2 (m := m) (by simpa using h), show a + 1 + m = a + (m + 1) by omega]

/-- The numbers of the bits that are set -/
def bits (x : BitVec 32) : List Nat := (List.range 32).filter fun i => x.getLsbD i

theorem bits_nodup (x : BitVec 32) : (bits x).Nodup := List.nodup_range.filter _

theorem bits_zero {x : BitVec 32} : bits x = [] ↔ x = 0 := by
  unfold bits
  rw [List.filter_eq_nil_iff]
  constructor
  · intro h
    refine BitVec.eq_of_getLsbD_eq fun i hi => ?_
    have := h i (List.mem_range.2 hi)
    simpa using this
  · rintro rfl i _
    simp

theorem cttz_bits {x : BitVec 32} {i : Nat} {is : List Nat} (h : bits x = i :: is) : cttz x = i := by
  unfold cttz
  rw [← List.head?_filter]
  change ((bits x).head?).getD 32 = i
  rw [h]; rfl

theorem bits_clear {x : BitVec 32} {i : Nat} {is : List Nat} (h : bits x = i :: is) : bits (x ^^^ (1#32 <<< i)) = is := by
  have hm : i ∈ bits x := by rw [h]; exact List.mem_cons_self ..
  obtain ⟨h1, h2⟩ := List.mem_filter.1 hm
  have hi := List.mem_range.1 h1
  have hn := bits_nodup x
  rw [h] at hn
  obtain ⟨h3, _⟩ := List.nodup_cons.1 hn
  have e : bits (x ^^^ (1#32 <<< i)) = (bits x).filter fun j => decide (j ≠ i) := by
    unfold bits
    rw [List.filter_filter]
    refine List.filter_congr fun j hj => ?_
    have hj := List.mem_range.1 hj
    rw [BitVec.getLsbD_xor, BitVec.getLsbD_shiftLeft]
    by_cases e : j = i
    · subst e
      rw [h2]; simp [hj]
    · simp only [hj, decide_true, Bool.true_and, BitVec.getLsbD_one, ne_eq, e, not_false_eq_true]
      by_cases g : j < i
      · simp [g]
      · have : j - i ≠ 0 := by omega
        simp [this]
  rw [e, h, List.filter_cons]
  simp only [ne_eq, not_true_eq_false, decide_false, Bool.false_eq_true, if_false]
  rw [List.filter_eq_self]
  intro j hj
  refine decide_eq_true ?_
  rintro rfl
  exact h3 hj

theorem incCount_eq (n : Nat) (x : BitVec 32) (a : Nat) (out : Nat → BitVec 32) (h0 : bits x ≠ []) (hn : (bits x).length ≤ n) :
    incCount n x a out = some (number (bits x) a out, a + (bits x).length) := by
  induction n generalizing x a out with
  | zero =>
    have : bits x = [] := List.length_eq_zero_iff.1 (by omega)
    exact absurd this h0
  | succ n ih =>
    cases hb : bits x with
    | nil => exact absurd hb h0
    | cons i is =>
      have hx : x ≠ 0 := fun hc => h0 (bits_zero.2 hc)
      unfold incCount
      rw [if_neg hx]
      simp only [cttz_bits hb]
      have hc := bits_clear hb
      by_cases e : x ^^^ (1#32 <<< i) = 0
      · rw [if_pos e]
        have : is = [] := by rw [← hc, bits_zero.2 e]
        subst this
        rfl
      · rw [if_neg e]
        have hne : bits (x ^^^ (1#32 <<< i)) ≠ [] := fun h => e (bits_zero.1 h)
        rw [ih _ _ _ hne (by rw [hc]; rw [hb, List.length_cons] at hn; omega), hc]
        simp only [number, List.length_cons, Option.some.injEq, Prod.mk.injEq, true_and]
        omega

theorem maskBits_get (w : Nat) (hw : w ≤ 32) (b : Nat → Bool) (i : Nat) (hi : i < 32) :
    (maskBits w b).getLsbD i = (decide (i < w) && b i) := by
  unfold maskBits
  induction w with
  | zero => simp
  | succ w ih =>
    rw [List.range_succ, List.foldl_append]
    simp only [List.foldl_cons, List.foldl_nil]
    have := ih (by omega)
    by_cases hb : b w = true
    · rw [if_pos hb, BitVec.getLsbD_or, this, BitVec.getLsbD_shiftLeft]
      by_cases e : i = w
      · subst e; simp [hi, hb]
      · simp only [hi, decide_true, Bool.true_and, BitVec.getLsbD_one]
        by_cases g : i < w
        · simp [g, show i < w + 1 by omega]
        · have h1 : ¬ i < w + 1 := by omega
          have h2 : i - w ≠ 0 := by omega
          simp [g, h1, h2]
    · rw [if_neg hb, this]
      by_cases e : i = w
      · subst e
        simp only [Bool.not_eq_true] at hb
        simp [hb]
      · by_cases g : i < w
        · simp [g, show i < w + 1 by omega]
        · simp [g, show ¬ i < w + 1 by omega]

theorem maskBits_bits (w : Nat) (hw : w ≤ 32) (b : Nat → Bool) : bits (maskBits w b) = (List.range w).filter b := by
  unfold bits
  have e : List.range 32 = List.range w ++ List.range' w (32 - w) := by
    have h := (List.range'_append_1 (s := 0) (m := w) (n := 32 - w)).symm
    rw [Nat.zero_add, show w + (32 - w) = 32 by omega] at h
    rw [List.range_eq_range', List.range_eq_range']
    exact h
  rw [e, List.filter_append]
  have h1 : (List.range w).filter (fun i => (maskBits w b).getLsbD i) = (List.range w).filter b := by
    refine List.filter_congr fun i hi => ?_
    have := List.mem_range.1 hi
    rw [maskBits_get w hw b i (by omega)]
    simp [this]
  have h2 : (List.range' w (32 - w)).filter (fun i => (maskBits w b).getLsbD i) = [] := by
    rw [List.filter_eq_nil_iff]
    intro i hi
    obtain ⟨g1, g2⟩ := List.mem_range'_1.1 hi
    rw [maskBits_get w hw b i (by omega)]
    simp [show ¬ i < w by omega]
  rw [h1, h2, List.append_nil]

theorem foldl_max_ge (is : List Nat) (x : Nat → Nat) (m : Nat) : m ≤ is.foldl (fun m j => max m (x j)) m := by
  induction is generalizing m with
  | nil => exact Nat.le_refl _
  | cons i is ih => exact Nat.le_trans (Nat.le_max_left _ _) (ih _)

theorem foldl_max_mem (is : List Nat) (x : Nat → Nat) (m : Nat) :
    is.foldl (fun m j => max m (x j)) m = m ∨ ∃ j ∈ is, x j = is.foldl (fun m j => max m (x j)) m := by
  induction is generalizing m with
  | nil => exact .inl rfl
  | cons i is ih =>
    rw [List.foldl_cons]
    rcases ih (max m (x i)) with h | ⟨j, h1, h2⟩
    · rw [h]
      rcases Nat.le_total m (x i) with g | g
      · right; exact ⟨i, List.mem_cons_self .., by omega⟩
      · left; omega
    · exact .inr ⟨j, List.mem_cons_of_mem _ h1, h2⟩

theorem foldl_max_le (is : List Nat) (x : Nat → Nat) (m j : Nat) (hj : j ∈ is) : x j ≤ is.foldl (fun m j => max m (x j)) m := by
  induction is generalizing m with
  | nil => cases hj
  | cons i is ih =>
    rw [List.foldl_cons]
    rcases List.mem_cons.1 hj with h | h
    · subst h
      exact Nat.le_trans (Nat.le_max_right _ _) (foldl_max_ge _ _ _)
    · exact ih _ h

theorem umax_zero {w : Nat} {x : Nat → Nat} (h : umax w x = 0) {j : Nat} (hj : j < w) : x j = 0 := by
  have := foldl_max_le (List.range w) x 0 j (List.mem_range.2 hj)
  unfold umax at h
  omega

theorem umax_mem {w : Nat} {x : Nat → Nat} (h : umax w x ≠ 0) : ∃ j, j < w ∧ x j = umax w x := by
  rcases foldl_max_mem (List.range w) x 0 with h1 | ⟨j, h1, h2⟩
  · exact absurd h1 h
  · exact ⟨j, List.mem_range.1 h1, h2⟩

def incLane (p : Packet (BitVec 32)) (t k i : Nat) : LaneOp LaneId (BitVec 32) (BitVec 32) :=
  { lane := (t, k, i), entry := p.index i, act := opInc }

theorem runOps_inc (p : Packet (BitVec 32)) (t k : Nat) (is : List Nat) (v : BitVec 32) :
    (runOps (is.map (incLane p t k)) v).1 = v + BitVec.ofNat 32 is.length ∧
    ∀ m i, is[m]? = some i → ((t, k, i), v + BitVec.ofNat 32 m) ∈ (runOps (is.map (incLane p t k)) v).2 := by
  induction is generalizing v with
  | nil => exact ⟨by simp [runOps], fun m i h => by cases h⟩
  | cons i is ih =>
    simp only [List.map_cons, runOps]
    obtain ⟨h1, h2⟩ := ih (v + 1)
    constructor
    · have : ((incLane p t k i).act v).1 = v + 1 := rfl
      rw [this, h1, List.length_cons, BitVec.ofNat_add, BitVec.add_assoc, BitVec.add_comm 1]
      rfl
    · intro m j hj
      cases m with
      | zero =>
        cases hj
        rw [show v + BitVec.ofNat 32 0 = v by simp]
        exact List.mem_cons_self ..
      | succ m =>
        refine List.mem_cons_of_mem _ ?_
        have := h2 m j (by simpa using hj)
        rw [BitVec.ofNat_add, BitVec.add_comm (BitVec.ofNat 32 m), ← BitVec.add_assoc]
        exact this

theorem incLoop_lin {t : Target} (ht : t.OK) {p : Packet (BitVec 32)} {w : Nat} (hw : w ≤ 32)
    (hi : ∀ i, i < w → p.mask i = true → p.index i < t.size) (a k n : Nat) (ptrs : Nat → Nat) (rem : Nat → Bool)
    (out : Nat → BitVec 32) (past : List (LaneId × BitVec 32))
    (hrem : ∀ i, i < w → rem i = true → p.mask i = true)
    (hptr : ∀ i, i < w → ptrs i = if rem i then t.ptr p i else 0)
    (hn : ((List.range w).filter rem).length < n)
    (hd : ∀ i, i < w → (p.mask i = true → rem i = false → ((a, k, i), out i) ∈ past) ∧ (p.mask i = false → out i = 0)) :
    Lin anyLe t.addr (OutOK 0 w p.mask a k) (incLoop w n ptrs out)
      (((List.range w).filter rem).map (incLane p a k)) past := by
  induction n generalizing ptrs rem out past with
  | zero => omega
  | succ n ih =>
    have hpos : ∀ i, i < w → rem i = true → ptrs i = t.addr (p.index i) ∧ 0 < ptrs i := by
      intro i hi' hr
      have := ptr_addr ht (hi i hi' (hrem i hi' hr))
      rw [hptr i hi', if_pos hr, this]
      refine ⟨rfl, ?_⟩
      have := ht.pos
      unfold Target.addr
      omega
    unfold incLoop
    by_cases hu : umax w ptrs = 0
    · simp only [if_pos hu]
      have hnone : ∀ i, i < w → rem i = false := by
        intro i hi'
        by_contra hc
        have := (hpos i hi' (by simpa using hc)).2
        rw [umax_zero hu hi'] at this
        omega
      refine ⟨fun o ho => ?_, fun i hi' => ⟨fun hm => (hd i hi').1 hm (hnone i hi'), (hd i hi').2⟩⟩
      obtain ⟨i, h1, rfl⟩ := List.mem_map.1 ho
      obtain ⟨h2, h3⟩ := List.mem_filter.1 h1
      rw [hnone i (List.mem_range.1 h2)] at h3
      cases h3
    · simp only [if_neg hu]
      obtain ⟨j0, hj0, hj1⟩ := umax_mem hu
      have hr0 : rem j0 = true := by
        by_contra hc
        rw [hptr j0 hj0, if_neg hc] at hj1
        exact hu hj1.symm
      -- the lanes with this address
      let g : Nat → Bool := fun j => decide (umax w ptrs = ptrs j)
      have hg : ∀ j, j < w → (g j = true ↔ rem j = true ∧ p.index j = p.index j0) := by
        intro j hj
        simp only [g, decide_eq_true_eq]
        rw [← hj1, (hpos j0 hj0 hr0).1]
        constructor
        · intro h
          have hr : rem j = true := by
            by_contra hc
            rw [hptr j hj, if_neg hc] at h
            have := (hpos j0 hj0 hr0).2
            rw [(hpos j0 hj0 hr0).1] at this
            omega
          rw [(hpos j hj hr).1] at h
          exact ⟨hr, (t.addr_inj h).symm⟩
        · rintro ⟨hr, h⟩
          rw [(hpos j hj hr).1, h]
      have hgj0 : j0 ∈ (List.range w).filter g :=
        List.mem_filter.2 ⟨List.mem_range.2 hj0, (hg j0 hj0).2 ⟨hr0, rfl⟩⟩
      have hb := maskBits_bits w hw g
      have hbne : bits (maskBits w g) ≠ [] := by rw [hb]; exact List.ne_nil_of_mem hgj0
      have hlen : (bits (maskBits w g)).length ≤ 32 :=
        Nat.le_trans (List.length_filter_le _ _) (by simp)
      rw [show (fun j => decide (umax w ptrs = ptrs j)) = g from rfl, incCount_eq 32 _ 0 out hbne hlen]
      simp only [hb, Nat.zero_add]
      have hgr : ∀ i ∈ List.range w, g i = true → rem i = true := fun i hi' h => ((hg i (List.mem_range.1 hi')).1 h).1
      have hperm := filter_split (List.range w) rem g hgr
      have hperm' := hperm.map (incLane p a k)
      rw [List.map_append] at hperm'
      refine ⟨_, _, p.index j0, hperm', ?_, ?_, fun v => ?_⟩
      · rw [← hj1, (hpos j0 hj0 hr0).1]
      · intro y hy
        obtain ⟨i, h1, rfl⟩ := List.mem_map.1 hy
        obtain ⟨h2, h3⟩ := List.mem_filter.1 h1
        exact ((hg i (List.mem_range.1 h2)).1 h3).2
      · obtain ⟨r1, r2⟩ := runOps_inc p a k ((List.range w).filter g) v
        refine ⟨r1, ih _ _ _ _ ?_ ?_ ?_ ?_⟩
        · intro i hi' h
          exact hrem i hi' (Bool.and_eq_true_iff.1 h).1
        · intro i hi'
          by_cases e : umax w ptrs = ptrs i
          · rw [if_pos e, if_neg]
            intro hc
            have := (Bool.and_eq_true_iff.1 hc).2
            simp only [g, e, decide_true, Bool.not_true, Bool.false_eq_true] at this
          · rw [if_neg e, hptr i hi']
            have : g i = false := decide_eq_false e
            simp only [this, Bool.not_false, Bool.and_true]
        · have := hperm.length_eq
          rw [List.length_append] at this
          have := List.length_pos_of_mem hgj0
          omega
        · intro i hi'
          refine ⟨fun hm hr => ?_, fun hm => ?_⟩
          · by_cases e : umax w ptrs = ptrs i
            · rw [if_pos e]
              have hmem : i ∈ (List.range w).filter g :=
                List.mem_filter.2 ⟨List.mem_range.2 hi', decide_eq_true e⟩
              obtain ⟨m, hm'⟩ := List.mem_iff_getElem?.1 hmem
              rw [number_get (List.nodup_range.filter _) hm', Nat.zero_add]
              exact List.mem_append_right _ (r2 m i hm')
            · rw [if_neg e]
              have hg' : g i = false := decide_eq_false e
              rw [hg', Bool.not_false, Bool.and_true] at hr
              exact List.mem_append_left _ ((hd i hi').1 hm hr)
          · rw [if_neg, (hd i hi').2 hm]
            intro e
            have := ((hg i hi').1 (decide_eq_true e)).1
            rw [hrem i hi' this] at hm
            cases hm

theorem inc_lin {t : Target} (ht : t.OK) {p : Packet (BitVec 32)} {w : Nat} (hw : w ≤ 32)
    (hi : ∀ i, i < w → p.mask i = true → p.index i < t.size) (a k : Nat) :
    Lin anyLe t.addr (OutOK 0 w p.mask a k) (inc t w p)
      (packetOps w Packet.index Packet.mask (fun _ _ => opInc) a k p) [] := by
  refine incLoop_lin ht hw hi a k (w + 1) _ p.mask _ [] (fun _ _ h => h) (fun _ _ => rfl) ?_ ?_
  · have := List.length_filter_le p.mask (List.range w)
    rw [List.length_range] at this
    omega
  · exact fun i _ => ⟨fun h1 h2 => (by rw [h1] at h2; cases h2), fun _ => rfl⟩

end Verif.Atomic
