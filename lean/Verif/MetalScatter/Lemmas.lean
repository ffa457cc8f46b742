import Verif.MetalScatter.Model
import Verif.CudaScatter.Inc

namespace Verif.MetalScatter
open Verif.CudaScatter hiding Group
variable {V : Type}

/-! ### Masks -/

theorem popc_congr {a b : Nat → Bool} (h : ∀ j < 32, a j = b j) : popc a = popc b := by
  unfold popc
  rw [List.filter_congr fun j hj => h j (List.mem_range.1 hj)]

theorem lowest_congr {a b : Nat → Bool} (h : ∀ j < 32, a j = b j) : lowest a = lowest b := by
  unfold lowest
  have : ∀ l : List Nat, (∀ j ∈ l, a j = b j) → l.find? a = l.find? b := by
    intro l
    induction l with
    | nil => intro _; rfl
    | cons x l ih =>
      intro hl
      rw [List.find?_cons, List.find?_cons, hl x (by simp), ih fun j hj => hl j (by simp [hj])]
  exact this _ fun j hj => h j (List.mem_range.1 hj)

theorem lowest_some {a : Nat → Bool} {j : Nat} (h : lowest a = some j) : j < 32 ∧ a j = true := by
  unfold lowest at h
  rw [List.find?_range_eq_some] at h
  exact ⟨List.mem_range.1 h.2.1, h.1⟩

theorem lowest_none {a : Nat → Bool} (h : lowest a = none) : ∀ j < 32, a j = false := by
  unfold lowest at h
  rw [List.find?_range_eq_none] at h
  intro j hj
  simpa using h j hj

theorem popc_two {a : Nat → Bool} {x y : Nat} (hx : x < 32) (hy : y < 32) (hxy : x ≠ y) (ax : a x = true) (ay : a y = true) : 2 ≤ popc a := by
  unfold popc
  have h : [x, y].Subperm ((List.range 32).filter a) := by
    apply List.subperm_of_subset
    · simp [hxy]
    · intro z hz
      simp only [List.mem_cons, List.not_mem_nil, or_false] at hz
      rcases hz with rfl | rfl
      · simp [List.mem_filter, hx, ax]
      · simp [List.mem_filter, hy, ay]
  exact h.length_le

/-! ### `drjit_peer_mask` -/

theorem index_lt (g : CudaScatter.Group V) (shift l : Nat) : g.index shift l < 2 ^ 32 := Nat.mod_lt _ (by decide)

theorem index_eq_of_bits {g : CudaScatter.Group V} {shift l j : Nat} (h : ∀ b < 32, (g.index shift j).testBit b = (g.index shift l).testBit b) :
    g.index shift j = g.index shift l := by
  apply Nat.eq_of_testBit_eq
  intro b
  by_cases hb : b < 32
  · exact h b hb
  · have e : ∀ x, (g.index shift x).testBit b = false := fun x => Nat.testBit_lt_two_pow
      (lt_of_lt_of_le (index_lt g shift x) (Nat.pow_le_pow_right (by decide) (by omega)))
    rw [e, e]

/-- State of the loop: lanes agree in all bits that have been processed. -/
def PInv (g : CudaScatter.Group V) (shift : Nat) (v : Nat → Bool) (p : Nat → Nat → Bool) : Prop :=
  ∀ l < 32, g.active l = true → ∀ j < 32, (p l j = true ↔ g.active j = true ∧
    ∀ b < 32, v b = false → (g.index shift j).testBit b = (g.index shift l).testBit b)

theorem pinv_start (g : CudaScatter.Group V) (shift : Nat) : PInv g shift (varying g shift) (fun _ => g.active) := by
  intro l hl ha j hj
  refine ⟨fun h => ⟨h, fun b _ hv => ?_⟩, fun h => h.1⟩
  unfold varying at hv
  cases hf : lowest g.active with
  | none => rw [lowest_none hf l hl] at ha; cases ha
  | some f =>
    rw [hf] at hv
    simp only at hv
    have key : ∀ x < 32, g.active x = true → (g.index shift x).testBit b = (g.index shift f).testBit b := by
      intro x hx hax
      rw [List.any_eq_false] at hv
      have := hv x (List.mem_range.2 hx)
      rw [hax, Nat.testBit_xor] at this
      simpa using this
    rw [key j hj h, key l hl ha]

theorem pinv_step {g : CudaScatter.Group V} {shift b : Nat} {v : Nat → Bool} {p : Nat → Nat → Bool} (hb : lowest v = some b) (h : PInv g shift v p) :
    PInv g shift (fun x => v x && x != b)
      (fun l j => p l j && (if (g.index shift l).testBit b then bMask g shift b j else !bMask g shift b j)) := by
  obtain ⟨hb32, hvb⟩ := lowest_some hb
  intro l hl ha j hj
  rw [Bool.and_eq_true, h l hl ha j hj]
  have e : g.active j = true → ((if (g.index shift l).testBit b then bMask g shift b j else !bMask g shift b j) = true ↔
      (g.index shift j).testBit b = (g.index shift l).testBit b) := by
    intro haj
    unfold bMask
    rw [haj, Bool.true_and]
    cases (g.index shift l).testBit b <;> cases (g.index shift j).testBit b <;> simp
  constructor
  · rintro ⟨⟨haj, h1⟩, h2⟩
    refine ⟨haj, fun b' hb' hv' => ?_⟩
    by_cases hbb : b' = b
    · rw [hbb]; exact (e haj).1 h2
    · apply h1 b' hb'
      simpa [hbb] using hv'
  · rintro ⟨haj, h1⟩
    refine ⟨⟨haj, fun b' hb' hv' => h1 b' hb' (by simp [hv'])⟩, (e haj).2 (h1 b hb32 (by simp))⟩

theorem peerLoop_spec {g : CudaScatter.Group V} {shift : Nat} {v : Nat → Bool} {p r : Nat → Nat → Bool} (h : PeerLoop g shift v p r) :
    PInv g shift v p → ∀ l < 32, g.active l = true → ∀ j < 32, r l j = g.peers shift l j := by
  have fin : ∀ (r : Nat → Nat → Bool), (∀ l < 32, g.active l = true → ∀ j < 32, (r l j = true ↔ g.active j = true ∧ g.index shift j = g.index shift l)) →
      ∀ l < 32, g.active l = true → ∀ j < 32, r l j = g.peers shift l j := by
    intro r hr l hl ha j hj
    rw [Bool.eq_iff_iff, hr l hl ha j hj]
    unfold CudaScatter.Group.peers
    simp
  induction h with
  | done hv =>
    intro hi
    apply fin
    intro l hl ha j hj
    rw [hi l hl ha j hj]
    refine and_congr_right fun _ => ⟨fun h => index_eq_of_bits fun b hb => h b hb (lowest_none hv b hb), fun h b _ _ => by rw [h]⟩
  | @early v p b hv hs =>
    intro hi
    apply fin
    intro l hl ha j hj
    constructor
    · intro hp
      have hself : p l l = true := (hi l hl ha l hl).2 ⟨ha, fun _ _ _ => rfl⟩
      have : j = l := by
        by_contra hne
        have := popc_two hj hl hne hp hself
        have := hs l hl ha
        omega
      subst this
      exact ⟨ha, rfl⟩
    · rintro ⟨h1, h2⟩
      exact (hi l hl ha j hj).2 ⟨h1, fun _ _ _ => by rw [h2]⟩
  | next hv _ _ ih =>
    intro hi
    exact ih (pinv_step hv hi)

theorem peers_eq {g : CudaScatter.Group V} {shift : Nat} {p : Nat → Nat → Bool} (h : PeerMask g shift p) {l : Nat} (hl : l < 32) (ha : g.active l = true) :
    ∀ j < 32, p l j = g.peers shift l j := peerLoop_spec h (pinv_start g shift) l hl ha

theorem popc_remove {v : Nat → Bool} {b : Nat} (h : lowest v = some b) : popc (fun x => v x && x != b) < popc v := by
  obtain ⟨hb, hv⟩ := lowest_some h
  unfold popc
  rw [show (List.range 32).filter (fun x => v x && x != b) = ((List.range 32).filter v).filter (fun x => x != b) by
    rw [List.filter_filter]; apply List.filter_congr; intro x _; exact Bool.and_comm _ _]
  rw [List.length_filter_lt_length_iff_exists]
  exact ⟨b, List.mem_filter.2 ⟨List.mem_range.2 hb, hv⟩, by simp⟩

theorem peerLoop_exists (g : CudaScatter.Group V) (shift : Nat) : ∀ n v p, popc v ≤ n → ∃ r, PeerLoop g shift v p r := by
  intro n
  induction n with
  | zero =>
    intro v p hn
    cases hv : lowest v with
    | none => exact ⟨p, .done hv⟩
    | some b => have := popc_remove hv; omega
  | succ n ih =>
    intro v p hn
    cases hv : lowest v with
    | none => exact ⟨p, .done hv⟩
    | some b =>
      by_cases hs : ∀ l < 32, g.active l = true → popc (p l) ≤ 1
      · exact ⟨p, .early hv hs⟩
      · obtain ⟨r, hr⟩ := ih (fun x => v x && x != b)
          (fun l j => p l j && (if (g.index shift l).testBit b then bMask g shift b j else !bMask g shift b j)) (by have := popc_remove hv; omega)
        exact ⟨r, .next hv hs hr⟩

theorem peerMask_exists (g : CudaScatter.Group V) (shift : Nat) : ∃ p, PeerMask g shift p := peerLoop_exists g shift _ _ _ (le_refl _)

theorem rank_eq {g : CudaScatter.Group V} {shift : Nat} {p : Nat → Nat → Bool} (h : PeerMask g shift p) {l : Nat} (hl : l < 32) (ha : g.active l = true) :
    rankOf p l = g.rank shift l := popc_congr fun j hj => by rw [peers_eq h hl ha j hj]

theorem leader_iff {g : CudaScatter.Group V} {shift : Nat} {p : Nat → Nat → Bool} (h : PeerMask g shift p) {l : Nat} (hl : l < 32) (ha : g.active l = true) :
    leader p l = (g.rank shift l == 0) := by
  unfold leader
  rw [lowest_congr (peers_eq h hl ha)]
  obtain ⟨r, hr, e, hrk⟩ := exists_pos (shift := shift) hl ha
  rw [lowest_peers (by omega), hrk, Bool.eq_iff_iff]
  simp only [beq_iff_eq, Option.some.injEq]
  constructor
  · intro h0
    by_contra hne
    have := (cls_lt (g := g) (shift := shift) (c := g.index shift l) (a := 0) (b := r) (by omega) hr).2 (by omega)
    rw [h0, e] at this
    omega
  · intro h0
    subst h0
    exact e

/-! ### The butterfly -/

/-- The corresponding registers of a CUDA kernel -/
def aux (g : CudaScatter.Group V) (shift k : Nat) (s : Regs V) : CudaScatter.Regs V := ⟨s.w, s.upper, fun l => g.rank shift l / 2 ^ k⟩

structure MInv (g : CudaScatter.Group V) (op : V → V → V) (shift k : Nat) (s : Regs V) : Prop where
  inv : Inv g op shift k (aux g shift k s)
  rem : ∀ l < 32, g.active l = true → ∀ j < 32,
    (s.remaining l j = true ↔ g.active j = true ∧ g.index shift j = g.index shift l ∧ 2 ^ k ∣ g.rank shift j)
  rank : ∀ l < 32, g.active l = true → 2 ^ k ∣ g.rank shift l → s.rank l = g.rank shift l / 2 ^ k

theorem upper_of_rem {g : CudaScatter.Group V} {shift k : Nat} {s : Regs V} (h : ∀ l < 32, g.active l = true → ∀ j < 32,
    (s.remaining l j = true ↔ g.active j = true ∧ g.index shift j = g.index shift l ∧ 2 ^ k ∣ g.rank shift j)) :
    ∀ l < 32, g.active l = true → ∀ j < 32, (s.upper l j = true ↔
      g.active j = true ∧ g.index shift j = g.index shift l ∧ l < j ∧ 2 ^ k ∣ g.rank shift j) := by
  intro l hl ha j hj
  unfold Regs.upper
  rw [Bool.and_eq_true, h l hl ha j hj, decide_eq_true_eq]
  tauto

theorem minv_start {g : CudaScatter.Group V} (op : V → V → V) {shift : Nat} {p : Nat → Nat → Bool} (h : PeerMask g shift p) : MInv g op shift 0 (start g p) := by
  have hrem : ∀ l < 32, g.active l = true → ∀ j < 32,
      ((start g p).remaining l j = true ↔ g.active j = true ∧ g.index shift j = g.index shift l ∧ 2 ^ 0 ∣ g.rank shift j) := by
    intro l hl ha j hj
    simp only [start]
    rw [peers_eq h hl ha j hj]
    unfold CudaScatter.Group.peers
    simp
  refine ⟨⟨fun l => rfl, upper_of_rem hrem, (inv_start g op shift).val⟩, hrem, fun l hl ha _ => ?_⟩
  simp only [start]
  rw [rank_eq h hl ha, pow_zero, Nat.div_one]

theorem minv_round {g : CudaScatter.Group V} {op : V → V → V} {shift k : Nat} {s : Regs V} (h : MInv g op shift k s) : MInv g op shift (k + 1) (round g op s) := by
  have hin : ∀ l < 32, g.active l = true → (s.inGroup l = true ↔ 2 ^ k ∣ g.rank shift l) := by
    intro l hl ha
    unfold Regs.inGroup
    rw [h.rem l hl ha l hl]
    simp [ha]
  have hrem : ∀ l < 32, g.active l = true → ∀ j < 32, ((round g op s).remaining l j = true ↔
      g.active j = true ∧ g.index shift j = g.index shift l ∧ 2 ^ (k + 1) ∣ g.rank shift j) := by
    intro l hl ha j hj
    simp only [round]
    rw [Bool.and_eq_true, h.rem l hl ha j hj]
    constructor
    · rintro ⟨⟨h1, h2, h3⟩, h4⟩
      refine ⟨h1, h2, (dvd_iff_even h3).1 ?_⟩
      unfold Regs.drop at h4
      rw [h1, (hin j hj h1).2 h3, h.rank j hj h1 h3] at h4
      simpa using h4
    · rintro ⟨h1, h2, h3⟩
      have h4 : 2 ^ k ∣ g.rank shift j := dvd_trans (pow_dvd_pow 2 (Nat.le_succ k)) h3
      refine ⟨⟨h1, h2, h4⟩, ?_⟩
      unfold Regs.drop
      rw [h.rank j hj h1 h4, (dvd_iff_even h4).2 h3]
      simp
  refine ⟨⟨fun l => rfl, upper_of_rem hrem, fun l hl ha hd i => ?_⟩, hrem, fun l hl ha hd => ?_⟩
  · have hv := (inv_round h.inv).val l hl ha hd i
    have hd' : 2 ^ k ∣ g.rank shift l := dvd_trans (pow_dvd_pow 2 (Nat.le_succ k)) hd
    have he : (aux g shift (k + 1) (round g op s)).q l i = (g.round op (aux g shift k s)).q l i := by
      have hrecv : s.recv l = (lowest (s.upper l)).isSome := by
        unfold Regs.recv
        rw [(hin l hl ha).2 hd', h.rank l hl ha hd', (dvd_iff_even hd').2 hd]
        simp
      simp only [aux, round, CudaScatter.Group.round]
      rw [hrecv]
      unfold Regs.nextLane
      cases lowest (s.upper l) <;> simp
    rw [he]
    exact hv
  · have hd' : 2 ^ k ∣ g.rank shift l := dvd_trans (pow_dvd_pow 2 (Nat.le_succ k)) hd
    simp only [round]
    rw [(hin l hl ha).2 hd', if_pos rfl, h.rank l hl ha hd', Nat.div_div_eq_div_mul, pow_succ]

theorem minv_done {g : CudaScatter.Group V} {op : V → V → V} {shift k : Nat} {s : Regs V} (h : MInv g op shift k s)
    (hd : ∀ l < 32, g.active l = true → popc (s.remaining l) ≤ 1) : ∀ l < 32, g.active l = true → ∀ j < 32, (aux g shift k s).peers l j = false := by
  intro l hl ha j hj
  rw [Bool.eq_false_iff]
  intro hp
  obtain ⟨h1, h2, h3, h4⟩ := (h.inv.peers l hl ha j hj).1 hp
  obtain ⟨r, hr, e, hrk⟩ := exists_pos (shift := shift) hl ha
  have h0 : 0 < (g.cls shift (g.index shift l)).length := by omega
  have hm := mem_cls.1 (List.getElem_mem h0)
  have hle : (g.cls shift (g.index shift l))[0] ≤ l := by
    rcases Nat.eq_zero_or_pos r with h | h
    · subst h; exact le_of_eq e
    · have := (cls_lt h0 hr).2 h
      rw [e] at this
      exact le_of_lt this
  have ha0 := (h.rem l hl ha _ hm.1).2 ⟨hm.2.1, hm.2.2, by rw [rank_cls h0]; exact dvd_zero _⟩
  have haj := (h.rem l hl ha j hj).2 ⟨h1, h2, h4⟩
  have := popc_two hm.1 hj (by omega) ha0 haj
  have := hd l hl ha
  omega

theorem loop_spec {g : CudaScatter.Group V} {op : V → V → V} {shift : Nat} {s s' : Regs V} (hL : Loop g op s s') :
    ∀ k, MInv g op shift k s → ∀ l < 32, g.active l = true → g.rank shift l = 0 → ∀ i,
      Bracketed op ((g.cls shift (g.index shift l)).map fun j => g.val j i) (s'.w l i) := by
  induction hL with
  | done hd => intro k h l hl ha hr i; exact inv_done h.inv (minv_done h hd) hl ha hr i
  | next _ _ ih => intro k h l hl ha hr i; exact ih (k + 1) (minv_round h) l hl ha hr i

theorem loop_exists {g : CudaScatter.Group V} {op : V → V → V} {shift : Nat} (d : Nat) : ∀ k s, k + d = 5 → MInv g op shift k s → ∃ s', Loop g op s s' := by
  have hdone : ∀ s, MInv g op shift 5 s → ∀ l < 32, g.active l = true → popc (s.remaining l) ≤ 1 := by
    intro s h l hl ha
    by_contra hc
    unfold popc at hc
    have hn : ((List.range 32).filter (s.remaining l)).Nodup := List.nodup_range.filter _
    have key : ∀ j ∈ (List.range 32).filter (s.remaining l), g.index shift j = g.index shift l ∧ j ∈ g.leaders shift := by
      intro j hj
      rw [List.mem_filter, List.mem_range] at hj
      obtain ⟨h1, h2, h3⟩ := (h.rem l hl ha j hj.1).1 hj.2
      obtain ⟨r, hr, e, hrk⟩ := exists_pos (shift := shift) hj.1 h1
      have := cls_length g shift (g.index shift j)
      refine ⟨h2, mem_leaders.2 ⟨hj.1, h1, ?_⟩⟩
      rw [hrk] at h3 ⊢
      exact Nat.eq_zero_of_dvd_of_lt h3 (by omega)
    have e0 := key _ (List.getElem_mem (show 0 < _ by omega))
    have e1 := key _ (List.getElem_mem (show 1 < ((List.range 32).filter (s.remaining l)).length by omega))
    have := leader_unique e0.2 e1.2 (e0.1.trans e1.1.symm)
    have := (List.Nodup.getElem_inj_iff hn).1 this
    omega
  induction d with
  | zero =>
    intro k s hk h
    have : k = 5 := by omega
    subst this
    exact ⟨s, .done (hdone s h)⟩
  | succ d ih =>
    intro k s hk h
    by_cases hd : ∀ l < 32, g.active l = true → popc (s.remaining l) ≤ 1
    · exact ⟨s, .done hd⟩
    · obtain ⟨s', hs'⟩ := ih (k + 1) (round g op s) (by omega) (minv_round h)
      exact ⟨s', .next hd hs'⟩

end Verif.MetalScatter
