import Verif.Packet.Gather

/-!
# Packet scatters by one thread (C70)
-/
namespace Verif.Packet

open Verif.Par
open Verif.Atomic (Target gep)

variable {V : Type}

/-- Entry `j` has been supplied with the values `L j`, nothing else changes. -/
def Post (op : Option (V → V → V)) (t : Target) (L : Nat → List V) (m m' : Option Nat → V) : Prop :=
  (∀ j, m' (some (t.addr j)) = result op (m (some (t.addr j))) (L j)) ∧ ∀ loc, (∀ j, loc ≠ some (t.addr j)) → m' loc = m loc

theorem Post.refl (op : Option (V → V → V)) (t : Target) (m : Option Nat → V) : Post op t (fun _ => []) m m := ⟨fun _ => rfl, fun _ _ => rfl⟩

theorem Post.trans {op : Option (V → V → V)} {t : Target} {L1 L2 : Nat → List V} {m1 m2 m3 : Option Nat → V}
    (h1 : Post op t L1 m1 m2) (h2 : Post op t L2 m2 m3) : Post op t (fun j => L1 j ++ L2 j) m1 m3 := by
  refine ⟨fun j => ?_, fun loc hl => (h2.2 loc hl).trans (h1.2 loc hl)⟩
  rw [h2.1 j, h1.1 j]
  unfold result
  rw [List.foldl_append]

theorem Post.congr {op : Option (V → V → V)} {t : Target} {L1 L2 : Nat → List V} {m1 m2 : Option Nat → V} (h : Post op t L1 m1 m2)
    (he : ∀ j, L1 j = L2 j) : Post op t L2 m1 m2 := by
  have : L1 = L2 := funext he
  exact this ▸ h

/-- A loop whose iterations supply values -/
theorem loop_post {op : Option (V → V → V)} {t : Target} {S : Set (Option Nat)} {n : Nat} {body : Nat → Unit → Prog (Option Nat) V Unit} (L : Nat → Nat → List V)
    (h : ∀ k, k < n → ∀ m, wp S S (body k ()) m fun _ m' => Post op t (L k) m m') (m : Option Nat → V) :
    wp S S (Prog.loop n () body) m fun _ m' => Post op t (fun j => (List.range n).flatMap fun k => L k j) m m' := by
  refine wp_loop (fun k _ m' => Post op t (fun j => (List.range k).flatMap fun k => L k j) m m') (Post.refl op t m) ?_
  intro k a m1 hk h1
  refine wp_mono (h k hk m1) fun _ m2 h2 => ?_
  refine (h1.trans h2).congr fun j => ?_
  rw [List.range_succ, List.flatMap_append]
  simp

/-- The values of a packet that starts at entry `q` -/
def rowVals (n q : Nat) (row : Nat → V) (j : Nat) : List V := if q ≤ j ∧ j < q + n then [row (j - q)] else []

theorem storeRow_wp {op : Option (V → V → V)} {t : Target} {n q : Nat} {row : Nat → V} {S : Set (Option Nat)}
    (hal : t.addr q % (2 ^ t.shift * n) = 0) (hS : ∀ e, e < n → some (t.addr (q + e)) ∈ S) (m : Option Nat → V) :
    wp S S (storeRow op (2 ^ t.shift) n (t.addr q) row) m fun _ m' => Post op t (rowVals n q row) m m' := by
  have hadr : ∀ e, (if t.addr q % (2 ^ t.shift * n) = 0 then some (t.addr q + 2 ^ t.shift * e) else none) = some (t.addr (q + e)) := by
    intro e
    rw [if_pos hal, addr_add]
  -- the stores
  have hst : ∀ (r : Nat → V), (∀ e, e < n → r e = newValue op (m (some (t.addr (q + e)))) (row e)) →
      wp S S (Prog.loop n () fun e _ => Prog.put (some (t.addr (q + e))) (r e)) m fun _ m' => Post op t (rowVals n q row) m m' := by
    intro r hr
    have h := wp_loop (R := S) (W := S) (body := fun e _ => Prog.put (some (t.addr (q + e))) (r e)) (n := n) (a := ()) (m := m)
      (fun k _ m' => ∀ loc, m' loc = if ∃ e, e < k ∧ loc = some (t.addr (q + e)) then m' loc else m loc)
      (by intro loc; rw [if_neg]; rintro ⟨e, h, _⟩; omega) (by
        intro k a m1 hk h1
        refine wp_put (hS k hk) fun loc => ?_
        split
        · rfl
        · rename_i hn
          unfold upd
          rw [if_neg fun e => hn ⟨k, by omega, e⟩, h1 loc, if_neg]
          rintro ⟨e, he, h2⟩
          exact hn ⟨e, by omega, h2⟩)
    have h' := wp_loop (R := S) (W := S) (body := fun e _ => Prog.put (some (t.addr (q + e))) (r e)) (n := n) (a := ()) (m := m)
      (fun k _ m' => (∀ e, e < k → m' (some (t.addr (q + e))) = r e) ∧ ∀ loc, (∀ e, e < k → loc ≠ some (t.addr (q + e))) → m' loc = m loc)
      ⟨fun e he => by omega, fun _ _ => rfl⟩ (by
        intro k a m1 hk ⟨h1, h2⟩
        refine wp_put (hS k hk) ⟨fun e he => ?_, fun loc hl => ?_⟩
        · unfold upd
          by_cases hek : e = k
          · rw [if_pos (by rw [hek]), hek]
          · rw [if_neg (fun hc => hek (Nat.add_left_cancel (t.addr_inj (Option.some.inj hc))))]
            exact h1 e (by omega)
        · unfold upd
          rw [if_neg (hl k (by omega))]
          exact h2 loc fun e he => hl e (by omega))
    refine wp_mono h' fun _ m' ⟨h1, h2⟩ => ⟨fun j => ?_, fun loc hl => h2 loc fun e _ => hl _⟩
    unfold rowVals
    by_cases hj : q ≤ j ∧ j < q + n
    · rw [if_pos hj]
      have e : q + (j - q) = j := by omega
      have := h1 (j - q) (by omega)
      rw [e] at this
      rw [this, hr (j - q) (by omega), e]
      rfl
    · rw [if_neg hj]
      refine h2 _ fun e he hc => hj ?_
      have := t.addr_inj (Option.some.inj hc)
      omega
  unfold storeRow
  cases op with
  | none =>
    simp only [hadr]
    exact hst row fun e _ => rfl
  | some f =>
    simp only [hadr]
    rw [wp_bind]
    refine wp_mono (wp_loop (fun k acc m' => m' = m ∧ ∀ e, e < k → acc e = f (m (some (t.addr (q + e)))) (row e)) ⟨rfl, fun e he => by omega⟩ ?_) ?_
    · rintro k acc m1 hk ⟨rfl, h1⟩
      rw [wp_bind]
      refine wp_get (hS k hk) ⟨rfl, fun e he => ?_⟩
      beta_reduce
      by_cases hek : e = k
      · rw [if_pos hek, hek]
      · rw [if_neg hek]; exact h1 e (by omega)
    · rintro acc m1 ⟨rfl, h1⟩
      exact hst acc h1

/-- The values of a group of lanes -/
def laneVals (n : Nat) (mask : Nat → Bool) (ix : Nat → Nat) (row : Nat → Nat → V) (j lane : Nat) : List V :=
  if mask lane = true then rowVals n (ix lane) (row lane) j else []

theorem scatterRec_wp {op : Option (V → V → V)} {t : Target} {w n : Nat} (hn : 0 < n) {ptr : Nat → Nat} {mask : Nat → Bool} {S : Set (Option Nat)} (ix : Nat → Nat)
    (hptr : ∀ l, l < w → mask l = true → ptr l = t.addr (ix l)) (hal : ∀ l, l < w → mask l = true → t.addr (ix l) % (2 ^ t.shift * n) = 0)
    (hS : ∀ l, l < w → mask l = true → ∀ e, e < n → some (t.addr (ix l + e)) ∈ S)
    (d l i fuel : Nat) (v : Nat → Nat → V) (hf : d < fuel) (hs : w >>> l = n * 2 ^ d) (hi : (i + 1) * (n * 2 ^ d) ≤ w) (m : Option Nat → V) :
    wp S S (scatterRec op (2 ^ t.shift) w n ptr mask fuel l i v) m fun _ m' =>
      Post op t (fun j => (List.range (2 ^ d)).flatMap fun c => (List.range n).flatMap fun k =>
        laneVals n mask ix (fun _ e => v k (n * c + e)) j ((i * 2 ^ d + c) * n + k)) m m' := by
  induction d generalizing l i fuel v m with
  | zero =>
    obtain ⟨f, rfl⟩ : ∃ f, fuel = f + 1 := ⟨fuel - 1, by omega⟩
    rw [Nat.pow_zero, Nat.mul_one] at hs hi
    unfold scatterRec
    simp only [hs, if_true]
    have hlt : ∀ k, k < n → i * n + k < w := fun k hk => by rw [Nat.succ_mul] at hi; omega
    refine wp_mono (loop_post (fun k j => laneVals n mask ix (fun _ e => v k e) j (i * n + k)) (fun k hk m => ?_) m) fun _ m' h => h.congr fun j => ?_
    · unfold laneVals
      by_cases hm : mask (i * n + k) = true
      · simp only [hm, if_true]
        rw [hptr _ (hlt k hk) hm]
        exact storeRow_wp (hal _ (hlt k hk) hm) (hS _ (hlt k hk) hm) m
      · simp only [hm, Bool.false_eq_true, if_false]
        exact Post.refl op t m
    · simp
  | succ d ih =>
    obtain ⟨f, rfl⟩ : ∃ f, fuel = f + 1 := ⟨fuel - 1, by omega⟩
    have hp : 2 ^ (d + 1) = 2 ^ d + 2 ^ d := by rw [Nat.pow_succ]; omega
    have hh : (w >>> l) / 2 = n * 2 ^ d := by
      rw [hs, Nat.pow_succ, ← Nat.mul_assoc, Nat.mul_div_cancel _ (by omega)]
    have hs' : w >>> (l + 1) = n * 2 ^ d := by rw [Nat.shiftRight_succ, hh]
    have hpos : 0 < n * 2 ^ d := Nat.mul_pos hn (Nat.two_pow_pos d)
    have hdbl : n * 2 ^ (d + 1) = 2 * (n * 2 ^ d) := by rw [hp, Nat.mul_add]; omega
    have hne : ¬ w >>> l = n := by
      rw [hs, hdbl]
      have : n * 1 ≤ n * 2 ^ d := Nat.mul_le_mul_left _ (Nat.two_pow_pos d)
      omega
    have hi1 : (2 * i + 1) * (n * 2 ^ d) ≤ w := by
      refine Nat.le_trans ?_ hi
      rw [hdbl, Nat.add_mul, Nat.add_mul, Nat.mul_left_comm i, Nat.mul_assoc 2]
      omega
    have hi2 : (2 * i + 1 + 1) * (n * 2 ^ d) ≤ w := by
      refine Nat.le_trans (Nat.le_of_eq ?_) hi
      rw [hdbl, ← Nat.mul_assoc (i + 1)]
      congr 1
      omega
    unfold scatterRec
    simp only [if_neg hne, hh]
    rw [wp_bind]
    refine wp_mono (ih (l + 1) (2 * i) f _ (by omega) hs' hi1 m) fun _ m1 h1 => ?_
    refine wp_mono (ih (l + 1) (2 * i + 1) f _ (by omega) hs' hi2 m1) fun _ m2 h2 => (h1.trans h2).congr fun j => ?_
    rw [hp, List.range_add, List.flatMap_append, List.flatMap_map]
    have hcs : ∀ c e, c < 2 ^ d → e < n → n * c + e < n * 2 ^ d := by
      intro c e hc he
      have : n * (c + 1) ≤ n * 2 ^ d := Nat.mul_le_mul_left _ hc
      rw [Nat.mul_succ] at this
      omega
    have hv : ∀ (ρ ρ' : Nat → V) (lane : Nat), (∀ e, e < n → ρ e = ρ' e) →
        laneVals n mask ix (fun _ => ρ) j lane = laneVals n mask ix (fun _ => ρ') j lane := by
      intro ρ ρ' lane h
      unfold laneVals rowVals
      split
      · split
        · beta_reduce; rw [h _ (by omega)]
        · rfl
      · rfl
    congr 1
    · refine List.flatMap_congr fun c hc => List.flatMap_congr fun k hk => ?_
      have hc := List.mem_range.1 hc
      rw [show 2 * i * 2 ^ d = i * (2 ^ d + 2 ^ d) by rw [Nat.mul_add, Nat.mul_assoc, Nat.two_mul]]
      refine hv _ _ _ fun e he => ?_
      unfold shuffle
      beta_reduce
      rw [Nat.zero_mul, Nat.add_zero, if_pos (by have := hcs c e hc he; rw [hs, hdbl]; omega)]
    · refine List.flatMap_congr fun c hc => List.flatMap_congr fun k hk => ?_
      have hc := List.mem_range.1 hc
      rw [show (2 * i + 1) * 2 ^ d + c = i * (2 ^ d + 2 ^ d) + (2 ^ d + c) by
        rw [Nat.add_mul, Nat.mul_assoc, Nat.mul_add]; omega]
      refine hv _ _ _ fun e he => ?_
      unfold shuffle
      beta_reduce
      rw [if_pos (by have := hcs c e hc he; rw [hs, hdbl]; omega)]
      congr 1
      rw [Nat.mul_add]; omega

theorem flatMap_range_mul {α : Type} (f : Nat → List α) (a n : Nat) :
    ((List.range a).flatMap fun c => (List.range n).flatMap fun k => f (n * c + k)) = (List.range (n * a)).flatMap f := by
  induction a with
  | zero => simp
  | succ a ih =>
    rw [List.range_succ, List.flatMap_append, ih, Nat.mul_succ, List.range_add, List.flatMap_append, List.flatMap_map]
    simp

theorem scatterFn_wp {op : Option (V → V → V)} {t : Target} {w n k : Nat} (hw : w = n * 2 ^ k) (hn : n = 2 ∨ n = 4 ∨ n = 8) {ptr : Nat → Nat} {mask : Nat → Bool}
    {S : Set (Option Nat)} (ix : Nat → Nat) (hptr : ∀ l, l < w → mask l = true → ptr l = t.addr (ix l))
    (hal : ∀ l, l < w → mask l = true → t.addr (ix l) % (2 ^ t.shift * n) = 0)
    (hS : ∀ l, l < w → mask l = true → ∀ e, e < n → some (t.addr (ix l + e)) ∈ S) (v : Nat → Nat → V) (m : Option Nat → V) :
    wp S S (scatterFn op (2 ^ t.shift) w n ptr mask v) m fun _ m' =>
      Post op t (fun j => (List.range w).flatMap (laneVals n mask ix (fun l e => v e l) j)) m m' := by
  have hn0 : 0 < n := by omega
  have hk : k < w + 1 := by
    have h1 : k < 2 ^ k := Nat.lt_two_pow_self
    have h2 : 1 * 2 ^ k ≤ n * 2 ^ k := Nat.mul_le_mul_right _ hn0
    omega
  obtain ⟨rs, h1, h2, h3⟩ := transposeN (w := w) hn v
  unfold scatterFn
  rw [h1]
  dsimp only
  refine wp_mono (scatterRec_wp hn0 ix hptr hal hS k 0 0 (w + 1) _ hk (by rw [Nat.shiftRight_zero]; exact hw) (by omega) m) fun _ m' h => h.congr fun j => ?_
  have hr : List.range w = List.range (n * 2 ^ k) := by rw [hw]
  rw [hr, ← flatMap_range_mul]
  refine List.flatMap_congr fun c hc => List.flatMap_congr fun x hx => ?_
  have hc := List.mem_range.1 hc
  have hx := List.mem_range.1 hx
  have hle : n * c + n ≤ w := by
    have := Nat.mul_le_mul_left n hc
    rw [Nat.mul_succ, ← hw] at this
    exact this
  rw [Nat.zero_mul, Nat.zero_add, Nat.mul_comm c n]
  unfold laneVals rowVals
  split
  · split
    · rename_i hj
      obtain ⟨r, h4, h5⟩ := h3 c x (j - ix (n * c + x)) hx (by omega) hle
      rw [h4, Option.getD_some]
      beta_reduce
      rw [h5]
    · rfl
  · rfl

/-! ### Large packets -/

theorem flatMap_single {α : Type} (f : Nat → List α) {a c0 : Nat} (h0 : c0 < a) (h : ∀ c, c < a → c ≠ c0 → f c = []) : (List.range a).flatMap f = f c0 := by
  induction a with
  | zero => omega
  | succ a ih =>
    rw [List.range_succ, List.flatMap_append]
    by_cases e : c0 = a
    · subst e
      rw [List.flatMap_eq_nil_iff.2 fun c hc => h c (by have := List.mem_range.1 hc; omega) (by have := List.mem_range.1 hc; omega)]
      simp
    · rw [ih (by omega) fun c hc hne => h c (by omega) hne]
      simp [h a (by omega) (fun hc => e hc.symm)]

/-- Large packets consist of smaller ones. -/
theorem split_vals {ps q w j : Nat} (hp : 0 < ps) (hq : 0 < q) (mask : Nat → Bool) (ix : Nat → Nat) (val : Nat → Nat → V)
    (hd : ∀ l, l < w → mask l = true → ps * q ∣ ix l) :
    ((List.range q).flatMap fun c => (List.range w).flatMap (laneVals ps mask (fun l => ix l + c * ps) (fun l e => val (c * ps + e) l) j)) =
      (List.range w).flatMap (laneVals (ps * q) mask ix (fun l e => val e l) j) := by
  have hc0 : j % (ps * q) / ps < q := by
    rw [Nat.div_lt_iff_lt_mul hp, Nat.mul_comm q]
    exact Nat.mod_lt _ (Nat.mul_pos hp hq)
  -- position of an entry within a group
  have key : ∀ l, l < w → mask l = true → ∀ c, c < q → (ix l + c * ps ≤ j ∧ j < ix l + c * ps + ps ↔ (ix l ≤ j ∧ j < ix l + ps * q) ∧ c = j % (ps * q) / ps) := by
    intro l hl hm c hc
    obtain ⟨g, hg⟩ := hd l hl hm
    have hcq : (c + 1) * ps ≤ q * ps := Nat.mul_le_mul_right _ hc
    rw [Nat.succ_mul, Nat.mul_comm q] at hcq
    constructor
    · rintro ⟨h1, h2⟩
      refine ⟨⟨by omega, by omega⟩, ?_⟩
      have h3 : j % (ps * q) = j - ix l := by
        have : j = (j - ix l) + ps * q * g := by omega
        rw [this, Nat.add_mul_mod_self_left, ← hg, Nat.add_sub_cancel, Nat.mod_eq_of_lt (by omega)]
      rw [h3]
      symm
      exact Nat.div_eq_of_lt_le (by omega) (by rw [Nat.succ_mul]; omega)
    · rintro ⟨⟨h1, h2⟩, rfl⟩
      have h3 : j % (ps * q) = j - ix l := by
        have : j = (j - ix l) + ps * q * g := by omega
        rw [this, Nat.add_mul_mod_self_left, ← hg, Nat.add_sub_cancel, Nat.mod_eq_of_lt (by omega)]
      rw [h3]
      have h4 := Nat.div_add_mod (j - ix l) ps
      have h5 := Nat.mod_lt (j - ix l) hp
      rw [Nat.mul_comm] at h4
      omega
  rw [flatMap_single _ hc0]
  · refine List.flatMap_congr fun l hl => ?_
    have hl := List.mem_range.1 hl
    unfold laneVals rowVals
    by_cases hm : mask l = true
    · rw [if_pos hm, if_pos hm]
      have hk := key l hl hm _ hc0
      by_cases h : ix l ≤ j ∧ j < ix l + ps * q
      · have h' := hk.2 ⟨h, rfl⟩
        rw [if_pos h', if_pos h]
        beta_reduce
        congr 2
        omega
      · rw [if_neg fun hc => h (hk.1 hc).1, if_neg h]
    · rw [if_neg hm, if_neg hm]
  · intro c hc hne
    rw [List.flatMap_eq_nil_iff]
    intro l hl
    have hl := List.mem_range.1 hl
    unfold laneVals rowVals
    by_cases hm : mask l = true
    · rw [if_pos hm, if_neg fun h => hne ((key l hl hm c hc).1 h).2]
    · rw [if_neg hm]

theorem gep_offset {t : Target} (ht : t.OK) {size' i off : Nat} (hi : i + off < t.size) (h31 : size' > 0x7fffffff ∨ i < 2 ^ 31) :
    gep ((t.base + 2 ^ t.shift * off) % 2 ^ 64) (2 ^ t.shift) size' i = t.addr (i + off) := by
  have h1 := Verif.Atomic.Target.addr_lt ht (j := off) (by omega)
  have h2 := Verif.Atomic.Target.addr_lt ht hi
  unfold Target.addr at h1 h2 ⊢
  rw [Nat.mod_eq_of_lt h1]
  unfold gep
  have e : (if size' > 0x7fffffff then i else if i < 2 ^ 31 then i else i + (2 ^ 64 - 2 ^ 32)) = i := by
    rcases h31 with h | h
    · rw [if_pos h]
    · rw [if_pos h, ite_self]
  simp only [e]
  rw [Nat.mul_add] at h2 ⊢
  rw [Nat.mod_eq_of_lt (by omega)]
  omega

/-- A packet scatter; `ix` is the first entry of the packet of a lane.  The generated code uses the size `size'` to choose the width of indices. -/
theorem renderScatter_wp {op : Option (V → V → V)} {t : Target} (ht : t.OK) {w k : Nat} (hw : w = 2 ^ k) (hk : 1 ≤ k) (hs : t.shift ≤ 3)
    (hal : min 64 (w * 2 ^ t.shift) ∣ t.base) {n : Nat} (hn : 0 < n) (hev : n % 2 = 0) {mask : Nat → Bool} {S : Set (Option Nat)} {ix : Nat → Nat} {size' : Nat}
    (h31 : size' > 0x7fffffff ∨ t.size ≤ 2 ^ 31)
    (hd : ∀ l, l < w → mask l = true → n ∣ ix l) (hb : ∀ l, l < w → mask l = true → ix l + n ≤ t.size)
    (hS : ∀ l, l < w → mask l = true → ∀ e, e < n → some (t.addr (ix l + e)) ∈ S) (val : Nat → Nat → V) (m : Option Nat → V) :
    wp S S (renderScatter op w n ⟨t.base, t.shift, size'⟩ ix val mask) m fun _ m' =>
      Post op t (fun j => (List.range w).flatMap (laneVals n mask ix (fun l e => val e l) j)) m m' := by
  obtain ⟨p1, p2, p3⟩ := packetSize_spec (n := n) (k := k) hev hn hk
  rw [← hw] at p1 p2 p3
  unfold renderScatter
  dsimp only
  generalize packetSize n 4 (min 8 w) = ps at p1 p2 p3 ⊢
  have hps0 : 0 < ps := by omega
  obtain ⟨q, rfl⟩ := p2
  have hq0 : 0 < q := Nat.pos_of_mul_pos_left hn
  rw [Nat.mul_div_cancel_left _ hps0]
  obtain ⟨d, hd'⟩ := packet_pow p1 (hw ▸ p3)
  have hal' := align_dvd p1 (hw ▸ p3) hs (hw ▸ hal)
  refine wp_mono (loop_post (fun c j => (List.range w).flatMap (laneVals ps mask (fun l => ix l + c * ps) (fun l e => val (c * ps + e) l) j)) (fun c hc m => ?_) m)
    fun _ m' h => h.congr fun j => split_vals hps0 hq0 mask ix val hd
  have hcq : (c + 1) * ps ≤ q * ps := Nat.mul_le_mul_right _ hc
  rw [Nat.succ_mul, Nat.mul_comm q] at hcq
  refine scatterFn_wp (hw.trans hd') p1 (fun l => ix l + c * ps) (fun l hl hm => ?_) (fun l hl hm => ?_) (fun l hl hm e he => ?_) (fun e => val (c * ps + e)) m
  · have := hb l hl hm
    exact gep_offset ht (by omega) (h31.imp id fun h => by omega)
  · obtain ⟨g, hg⟩ := hd l hl hm
    beta_reduce
    rw [hg, show ps * q * g + c * ps = ps * (q * g + c) by rw [Nat.mul_add, Nat.mul_assoc, Nat.mul_comm c]]
    exact addr_aligned hal'
  · have := hS l hl hm (c * ps + e) (by omega)
    rwa [← Nat.add_assoc] at this

end Verif.Packet
