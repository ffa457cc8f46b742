import Verif.Atomic.Kernel
import Mathlib.Tactic.SplitIfs

/-!
# Scatter-reductions have the effect of their lanes
-/
namespace Verif.Atomic

variable {V : Type}

/-- A target array in memory: its elements are aligned and lie below `2^64`, and it has at most `2^32`
entries. -/
structure Target.OK (t : Target) : Prop where
  pos : 0 < t.base
  align : 2 ^ t.shift ∣ t.base
  fits : t.base + 2 ^ t.shift * t.size ≤ 2 ^ 64
  size : t.size ≤ 2 ^ 32

/-- Address of an entry -/
def Target.addr (t : Target) (j : Nat) : Nat := t.base + 2 ^ t.shift * j

theorem Target.addr_inj (t : Target) : Function.Injective t.addr := by
  intro a b h
  unfold Target.addr at h
  exact Nat.eq_of_mul_eq_mul_left (Nat.two_pow_pos t.shift) (Nat.add_left_cancel h)

theorem Target.addr_lt {t : Target} (h : t.OK) {j : Nat} (hj : j < t.size) : t.addr j < 2 ^ 64 := by
  have h1 : 2 ^ t.shift * (j + 1) ≤ 2 ^ t.shift * t.size := Nat.mul_le_mul_left _ hj
  have h2 := h.fits
  have h3 := Nat.two_pow_pos t.shift
  rw [Nat.mul_add, Nat.mul_one] at h1
  unfold Target.addr
  omega

theorem ptr_addr {t : Target} (h : t.OK) {p : Packet V} {i : Nat} (hi : p.index i < t.size) : t.ptr p i = t.addr (p.index i) := by
  have hlt := Target.addr_lt h hi
  unfold Target.addr at hlt
  have hs := h.size
  unfold Target.ptr gep Target.addr
  have e : (if t.size > 0x7fffffff then p.index i
      else if p.index i < 2 ^ 31 then p.index i else p.index i + (2 ^ 64 - 2 ^ 32)) = p.index i := by
    by_cases e : t.size > 0x7fffffff
    · rw [if_pos e]
    · rw [if_neg e, if_pos (by omega)]
  simp only [e]
  exact Nat.mod_eq_of_lt hlt

/-- The operation is associative and commutative, and its shortcuts are justified. -/
structure Red.OK (r : Red V) : Prop where
  assoc : ∀ a b c, r.op (r.op a b) c = r.op a (r.op b c)
  comm : ∀ a b, r.op a b = r.op b a
  id : ∀ a, r.op a r.id = a
  skip : ∀ s, r.skip = some s → ∀ cur x, s cur x = true → r.op cur x = cur
  ne : ∀ x, r.ne r.id x = false → ∀ a, r.op a x = a

/-- `v'` is a later value of a location that held `v`. -/
def Red.Le (r : Red V) (v v' : V) : Prop := ∃ x, v' = r.op v x

theorem Red.OK.refl {r : Red V} (h : r.OK) (v : V) : r.Le v v := ⟨r.id, (h.id v).symm⟩

theorem Red.OK.trans {r : Red V} (h : r.OK) (a b c : V) (h1 : r.Le a b) (h2 : r.Le b c) : r.Le a c := by
  obtain ⟨x, rfl⟩ := h1
  obtain ⟨y, rfl⟩ := h2
  exact ⟨r.op x y, h.assoc a x y⟩

/-- The lanes of a reduction -/
abbrev redOps (r : Red V) (w t k : Nat) (p : Packet V) : List (LaneOp LaneId V Unit) :=
  packetOps w Packet.index Packet.mask (fun p i => opReduce r.op (p.val i)) t k p

/-- The lane of a reduction -/
def redLane (r : Red V) (p : Packet V) (t k i : Nat) : LaneOp LaneId V Unit :=
  { lane := (t, k, i), entry := p.index i, act := opReduce r.op (p.val i) }

theorem runOps_red (r : Red V) (p : Packet V) (t k : Nat) (is : List Nat) (v : V) :
    (runOps (is.map (redLane r p t k)) v).1 = is.foldl (fun acc i => r.op acc (p.val i)) v := by
  induction is generalizing v with
  | nil => rfl
  | cons i is ih => simp only [List.map_cons, runOps, List.foldl_cons, ih, redLane, opReduce]

theorem foldl_op {r : Red V} (h : r.OK) (f : Nat → V) (is : List Nat) (v : V) :
    is.foldl (fun acc i => r.op acc (f i)) v = r.op v (is.foldl (fun acc i => r.op acc (f i)) r.id) := by
  induction is generalizing v with
  | nil => exact (h.id v).symm
  | cons i is ih =>
    rw [List.foldl_cons, List.foldl_cons, ih, ih (r.op r.id (f i)), h.assoc, h.comm r.id, h.id]

theorem foldl_filter_id {r : Red V} (h : r.OK) (f : Nat → V) (g : Nat → Bool) (is : List Nat) (v : V) :
    is.foldl (fun acc i => r.op acc (if g i then f i else r.id)) v =
      (is.filter g).foldl (fun acc i => r.op acc (f i)) v := by
  induction is generalizing v with
  | nil => rfl
  | cons i is ih =>
    rw [List.foldl_cons, ih, List.filter_cons]
    split
    · rfl
    · rw [h.id]

/-- The result of a reduction does not depend on results of lanes. -/
abbrev anyQ : Unit → List (LaneId × Unit) → Prop := fun _ _ => True

theorem Lin.any {Le : V → V → Prop} {addr : Nat → Nat} {p : Act V Unit} {todo : List (LaneOp LaneId V Unit)}
    {past past' : List (LaneId × Unit)} (h : Lin Le addr anyQ p todo past) : Lin Le addr anyQ p todo past' := by
  induction p generalizing todo past past' with
  | pure a => exact h
  | load l k ih =>
    intro v
    obtain ⟨o, c, j, h1, h2, h3, h4, h5⟩ := h v
    exact ⟨o, c, j, h1, h2, h3, h4, ih v h5⟩
  | rmw l f k ih =>
    obtain ⟨o, c, j, h1, h2, h3, h4⟩ := h
    exact ⟨o, c, j, h1, h2, h3, fun v => ⟨(h4 v).1, ih v (h4 v).2⟩⟩
  | ub => exact h.elim

theorem atomic_lin {r : Red V} (h : r.OK) {addr : Nat → Nat} {l j : Nat} {x : V} {next : Act V Unit}
    {todo o c : List (LaneOp LaneId V Unit)} {past : List (LaneId × Unit)} (hp : todo.Perm (o ++ c)) (hl : addr j = l)
    (ho : ∀ y ∈ o, y.entry = j) (hx : ∀ v, (runOps o v).1 = r.op v x) (hn : Lin r.Le addr anyQ next c []) :
    Lin r.Le addr anyQ (atomic r l x next) todo past := by
  unfold atomic
  cases hs : r.skip with
  | none => exact ⟨o, c, j, hp, hl, ho, fun v => ⟨hx v, hn.any⟩⟩
  | some s =>
    intro cur
    by_cases e : s cur x = true
    · refine ⟨o, c, j, hp, hl, ho, fun v' hv' => ?_, ?_⟩
      · obtain ⟨y, rfl⟩ := hv'
        rw [hx, h.assoc, h.comm y, ← h.assoc, h.skip s hs cur x e]
      · beta_reduce; rw [if_pos e]; exact hn.any
    · refine ⟨[], todo, j, List.Perm.refl _, hl, fun y hy => (nomatch hy), fun _ _ => rfl, ?_⟩
      beta_reduce; rw [if_neg e]
      exact ⟨o, c, j, hp, hl, ho, fun v => ⟨hx v, hn.any⟩⟩

/-! ### Direct -/

theorem directLoop_lin {r : Red V} (h : r.OK) {t : Target} (ht : t.OK) {p : Packet V} {w : Nat}
    (hi : ∀ i, i < w → p.mask i = true → p.index i < t.size) (a k n : Nat) (hn : n ≤ w) (past : List (LaneId × Unit)) :
    Lin r.Le t.addr anyQ (directLoop r (t.ptr p) p.val p.mask w n)
      (((List.range' (w - n) n).filter p.mask).map (redLane r p a k)) past := by
  induction n generalizing past with
  | zero => exact ⟨fun o ho => by simp at ho, trivial⟩
  | succ n ih =>
    unfold directLoop
    have e : List.range' (w - (n + 1)) (n + 1) = (w - (n + 1)) :: List.range' (w - n) n := by
      rw [List.range'_succ, show w - (n + 1) + 1 = w - n by omega]
    rw [e, List.filter_cons]
    by_cases hm : p.mask (w - (n + 1)) = true
    · simp only [if_pos hm]
      rw [List.map_cons]
      refine atomic_lin h (o := [redLane r p a k (w - (n + 1))]) (j := p.index (w - (n + 1))) (List.Perm.refl _)
        (ptr_addr ht (hi _ (by omega) hm)).symm ?_ ?_ (ih (by omega) _)
      · intro y hy
        rw [List.mem_singleton.1 hy]; rfl
      · intro v; rfl
    · simp only [if_neg hm]
      exact ih (by omega) past

theorem direct_lin {r : Red V} (h : r.OK) {t : Target} (ht : t.OK) {p : Packet V} {w : Nat}
    (hi : ∀ i, i < w → p.mask i = true → p.index i < t.size) (a k : Nat) :
    Lin r.Le t.addr anyQ (direct r t w p) (redOps r w a k p) [] := by
  have := directLoop_lin h ht hi a k w (Nat.le_refl _) []
  rw [Nat.sub_self, ← List.range_eq_range'] at this
  exact this

/-! ### Local -/

/-- No entry of the array has an address that is a multiple of `2^32` elements. -/
def Target.NoZero (t : Target) : Prop := ∀ j, j < t.size → ¬ 2 ^ (32 + t.shift) ∣ t.addr j

theorem ptrlo_addr {t : Target} (ht : t.OK) (j : Nat) : ptrlo t.shift (t.addr j) = (t.base / 2 ^ t.shift + j) % 2 ^ 32 := by
  unfold ptrlo Target.addr
  rw [Nat.add_mul_div_left _ _ (Nat.two_pow_pos _)]

theorem ptrlo_inj {t : Target} (ht : t.OK) {i j : Nat} (hi : i < t.size) (hj : j < t.size)
    (h : ptrlo t.shift (t.addr i) = ptrlo t.shift (t.addr j)) : i = j := by
  rw [ptrlo_addr ht, ptrlo_addr ht] at h
  have := ht.size
  omega

theorem ptrlo_ne_zero {t : Target} (ht : t.OK) (hz : t.NoZero) {j : Nat} (hj : j < t.size) : ptrlo t.shift (t.addr j) ≠ 0 := by
  intro h
  refine hz j hj ?_
  obtain ⟨b, hb⟩ := ht.align
  unfold ptrlo at h
  have h1 : 2 ^ t.shift ∣ t.addr j := by
    unfold Target.addr
    exact Nat.dvd_add ht.align (Nat.dvd_mul_right _ _)
  obtain ⟨c, hc⟩ := h1
  rw [hc, Nat.mul_div_cancel_left _ (Nat.two_pow_pos _)] at h
  rw [hc, Nat.add_comm, Nat.pow_add]
  exact Nat.mul_dvd_mul_left _ (Nat.dvd_of_mod_eq_zero h)

theorem filter_split (is : List Nat) (rem g : Nat → Bool) (hg : ∀ i ∈ is, g i = true → rem i = true) :
    (is.filter rem).Perm (is.filter g ++ is.filter fun i => rem i && !g i) := by
  have h := (List.filter_append_perm g (is.filter rem)).symm
  rw [List.filter_filter, List.filter_filter] at h
  have e1 : is.filter (fun a => g a && rem a) = is.filter g := by
    refine List.filter_congr fun i hi => ?_
    cases hgi : g i with
    | false => rfl
    | true => rw [hg i hi hgi]; rfl
  have e2 : is.filter (fun a => (!g a) && rem a) = is.filter fun i => rem i && !g i := by
    refine List.filter_congr fun i _ => ?_
    rw [Bool.and_comm]
  rw [e1, e2] at h
  exact h

theorem anyLane_false {w : Nat} {active : Nat → Bool} (h : anyLane w active = false) {i : Nat} (hi : i < w) : active i = false := by
  unfold anyLane at h
  rw [List.any_eq_false] at h
  have := h i (List.mem_range.2 hi)
  simpa using this

theorem localLoop_lin {r : Red V} (h : r.OK) {t : Target} (ht : t.OK) (hz : t.NoZero) {p : Packet V} {w : Nat}
    (hi : ∀ i, i < w → p.mask i = true → p.index i < t.size) (a k n : Nat) (hn : n ≤ w) (active rem : Nat → Bool)
    (past : List (LaneId × Unit))
    (hrem : ∀ i, i < w → rem i = true → p.mask i = true)
    (hcl : ∀ i j, i < w → j < w → rem i = true → p.mask j = true → p.index j = p.index i → rem j = true)
    (hact : ∀ i, i < w → active i = (r.ne r.id (p.val i) && rem i))
    (hdone : ∀ i, i < w - n → active i = false) :
    Lin r.Le t.addr anyQ (localLoop r t.shift (t.ptr p) (fun i => if p.mask i then ptrlo t.shift (t.ptr p i) else 0) p.val w n active)
      (((List.range w).filter rem).map (redLane r p a k)) past := by
  have hpure : ∀ (active rem : Nat → Bool), (∀ i, i < w → active i = (r.ne r.id (p.val i) && rem i)) → anyLane w active = false →
      Lin r.Le t.addr anyQ (.pure ()) (((List.range w).filter rem).map (redLane r p a k)) past := by
    intro active rem hact hany
    refine ⟨fun o ho v => ?_, trivial⟩
    obtain ⟨i, hm, rfl⟩ := List.mem_map.1 ho
    obtain ⟨h1, h2⟩ := List.mem_filter.1 hm
    have hw := List.mem_range.1 h1
    have h3 := anyLane_false hany hw
    rw [hact i hw, h2, Bool.and_true] at h3
    exact h.ne _ h3 v
  induction n generalizing active rem past with
  | zero =>
    have hany : anyLane w active = false := by
      unfold anyLane
      rw [List.any_eq_false]
      intro i hi'
      rw [hdone i (by have := List.mem_range.1 hi'; omega)]
      simp
    unfold localLoop
    rw [hany]
    exact hpure active rem hact hany
  | succ n ih =>
    unfold localLoop
    cases hany : anyLane w active with
    | false => exact hpure active rem hact hany
    | true =>
      simp only [if_true]
      have hw : w - (n + 1) < w := by omega
      by_cases he : active (w - (n + 1)) = true
      · rw [if_pos he]
        have hr : rem (w - (n + 1)) = true := by
          rw [hact _ hw] at he
          exact (Bool.and_eq_true_iff.1 he).2
        have hm := hrem _ hw hr
        -- the group of lanes that use the same entry
        let g : Nat → Bool := fun j => p.mask j && decide (p.index j = p.index (w - (n + 1)))
        have hgr : ∀ i ∈ List.range w, g i = true → rem i = true := by
          intro i hi' hg
          obtain ⟨g1, g2⟩ := Bool.and_eq_true_iff.1 hg
          exact hcl _ i hw (List.mem_range.1 hi') hr g1 (of_decide_eq_true g2)
        have hlo : ∀ j, j < w → (ptrlo t.shift (t.ptr p (w - (n + 1))) ≠
            (if p.mask j then ptrlo t.shift (t.ptr p j) else 0) ↔ ¬ g j = true) := by
          intro j hj
          rw [ptr_addr ht (hi _ hw hm)]
          by_cases hmj : p.mask j = true
          · rw [if_pos hmj, ptr_addr ht (hi j hj hmj)]
            simp only [g, hmj, Bool.true_and, decide_eq_true_eq, ne_eq]
            constructor
            · intro h1 h2; rw [h2] at h1; exact h1 rfl
            · intro h1 h2; exact h1 (ptrlo_inj ht (hi _ hw hm) (hi j hj hmj) h2).symm
          · rw [if_neg hmj]
            simp only [g, hmj, Bool.false_and, Bool.false_eq_true, not_false_eq_true, iff_true]
            exact ptrlo_ne_zero ht hz (hi _ hw hm)
        have hperm := (filter_split (List.range w) rem g hgr).map (redLane r p a k)
        rw [List.map_append] at hperm
        refine atomic_lin h (j := p.index (w - (n + 1))) hperm (ptr_addr ht (hi _ hw hm)).symm ?_ ?_ ?_
        · intro y hy
          obtain ⟨i, h1, rfl⟩ := List.mem_map.1 hy
          obtain ⟨_, h2⟩ := List.mem_filter.1 h1
          exact of_decide_eq_true (Bool.and_eq_true_iff.1 h2).2
        · intro v
          rw [runOps_red, foldl_op h, redOut, ← foldl_filter_id h]
          congr 1
          refine List.foldl_ext _ _ _ fun acc j hj => ?_
          congr 1
          have := hlo j (List.mem_range.1 hj)
          by_cases e : g j = true
          · rw [if_pos e, if_neg (fun hc => this.1 hc e)]
          · rw [if_neg e, if_pos (this.2 e)]
        · refine ih (by omega) _ _ [] ?_ ?_ ?_ ?_ ?_
          · intro i hi' h1
            exact hrem i hi' (Bool.and_eq_true_iff.1 h1).1
          · intro i j hi' hj h1 h2 h3
            obtain ⟨g1, g2⟩ := Bool.and_eq_true_iff.1 h1
            refine Bool.and_eq_true_iff.2 ⟨hcl i j hi' hj g1 h2 h3, ?_⟩
            have hmi := hrem i hi' g1
            simp only [g, hmi, Bool.true_and, h2, h3] at g2 ⊢
            exact g2
          · intro i hi'
            rw [hact i hi', Bool.and_assoc]
            congr 1
            congr 1
            have := hlo i hi'
            by_cases e : g i = true
            · rw [e, decide_eq_false (fun hc => this.1 hc e)]; rfl
            · rw [decide_eq_true (this.2 e)]
              simp only [Bool.not_eq_true] at e
              rw [e]; rfl
          · intro i hi'
            by_cases e : i = w - (n + 1)
            · subst e
              have hgi : g (w - (n + 1)) = true := by simp only [g, hm, Bool.true_and, decide_true]
              rw [decide_eq_false (fun hc => (hlo _ hw).1 hc hgi), Bool.and_false]
            · rw [hdone i (by omega), Bool.false_and]
          · intro active rem h1 h2
            exact (hpure active rem h1 h2).any
      · rw [if_neg he]
        refine ih (by omega) active rem past hrem hcl hact ?_ hpure
        intro i hi'
        by_cases e : i = w - (n + 1)
        · subst e; simpa using he
        · exact hdone i (by omega)

theorem local_lin {r : Red V} (h : r.OK) {t : Target} (ht : t.OK) (hz : t.NoZero) {p : Packet V} {w : Nat}
    (hi : ∀ i, i < w → p.mask i = true → p.index i < t.size) (a k : Nat) :
    Lin r.Le t.addr anyQ (local_ r t w p) (redOps r w a k p) [] :=
  localLoop_lin h ht hz hi a k w (Nat.le_refl _) _ p.mask [] (fun _ _ h => h) (fun _ _ _ _ _ h _ => h)
    (fun _ _ => rfl) (fun i hi => absurd hi (by omega))

end Verif.Atomic
