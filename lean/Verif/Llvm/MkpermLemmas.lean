import Verif.Llvm.Mkperm

/-!
# Counting sort: the three phases
-/
namespace Verif.Llvm

open Verif.Par

section
variable {size bc inb fresh N : Nat} {c : Nat → Nat × Nat}

/-- Cells of the histogram of task `t` -/
def histCells (bc fresh t : Nat) : Set Loc := cells (fresh + t) 0 bc

theorem ofNat_succ (n : Nat) : BitVec.ofNat 32 n + 1 = BitVec.ofNat 32 (n + 1) := by simp [BitVec.ofNat_add]

theorem histTask_wp {t : Nat} (hc : (c t).1 ≤ (c t).2 ∧ (c t).2 ≤ size) (hsz : size < 2 ^ 32) (hne : inb < fresh) (m : Loc → BitVec 32)
    (hv : ∀ i, i < size → (m (inb, i)).toNat < bc) :
    wp {l | l ∈ cells inb 0 size ∨ l ∈ histCells bc fresh t} (histCells bc fresh t) (histTask c bc inb fresh t) m
      (fun _ m' => ∀ b, b < bc → m' (fresh + t, b) = BitVec.ofNat 32 (eqC (fun i => (m (inb, i)).toNat) b (c t).1 (c t).2)) := by
  unfold histTask
  rw [wp_bind]
  generalize c t = r at *
  unfold forLt
  refine wp_mono (wp_loop (fun k _ m' => (∀ b, b < k → m' (fresh + t, b) = 0) ∧ ∀ i, m' (inb, i) = m (inb, i)) ?_ ?_) ?_
  · exact ⟨fun b h => by omega, fun _ => rfl⟩
  · rintro k _ m1 hk ⟨h1, h2⟩
    refine wp_put ⟨rfl, by simp only; omega, by simp only; omega⟩ ⟨fun b hb => ?_, fun i => ?_⟩
    · simp only [upd, Nat.zero_add]
      split
      · rfl
      · rename_i hne'
        exact h1 b (by
          have : b ≠ k := fun e => hne' (by rw [e])
          omega)
    · have : (inb, i) ≠ (fresh + t, 0 + k) := fun h => by have := congrArg Prod.fst h; simp only at this; omega
      simp only [upd, if_neg this]
      exact h2 i
  · rintro _ m1 ⟨h1, h2⟩
    rw [forNe_eq _ (by omega) (by omega)]
    unfold forLt
    refine wp_mono (wp_loop (fun k _ m' => (∀ b, b < bc → m' (fresh + t, b) = BitVec.ofNat 32 (eqC (fun i => (m (inb, i)).toNat) b r.1 (r.1 + k))) ∧
      ∀ i, m' (inb, i) = m (inb, i)) ?_ ?_) ?_
    · refine ⟨fun b hb => ?_, h2⟩
      rw [h1 b (by omega), eqC_self (by omega)]; rfl
    · rintro k _ m2 hk ⟨h3, h4⟩
      rw [wp_bind]
      refine wp_get (Or.inl ⟨rfl, by simp only; omega, by simp only; omega⟩) ?_
      rw [wp_bind, h4]
      have hvi := hv (r.1 + k) (by omega)
      refine wp_get (Or.inr ⟨rfl, Nat.zero_le _, hvi⟩) ?_
      refine wp_put ⟨rfl, Nat.zero_le _, hvi⟩ ⟨fun b hb => ?_, fun i => ?_⟩
      · rw [← Nat.add_assoc, eqC_succ (by omega)]
        by_cases e : b = (m (inb, r.1 + k)).toNat
        · subst e
          simp only [upd, if_true]
          rw [h3 _ hb, ofNat_succ]
        · have hn : (fresh + t, b) ≠ (fresh + t, (m (inb, r.1 + k)).toNat) := fun h => e (congrArg Prod.snd h)
          simp only [upd, if_neg hn]
          rw [if_neg (fun h => e h.symm), h3 b hb, Nat.add_zero]
      · have : (inb, i) ≠ (fresh + t, (m (inb, r.1 + k)).toNat) := fun h => by have := congrArg Prod.fst h; simp only at this; omega
        simp only [upd, if_neg this]
        exact h4 i
    · rintro _ m2 ⟨h3, _⟩
      rw [show r.1 + (r.2 - r.1) = r.2 by omega] at h3
      exact h3

theorem hist_disj (hne : inb < fresh) : ∀ i j, i < N → j < N → i ≠ j → ∀ l : Loc, l ∈ histCells bc fresh i →
    l ∉ {l : Loc | l ∈ cells inb 0 size ∨ l ∈ histCells bc fresh j} ∧ l ∉ histCells bc fresh j := by
  rintro i j _ _ hij ⟨b, k⟩ ⟨e, _, _⟩
  simp only at e
  refine ⟨?_, fun h => by have := h.1; simp only at this; omega⟩
  rintro (⟨h, _⟩ | ⟨h, _⟩)
  · simp only at h; omega
  · simp only at h; omega

/-- The first phase -/
theorem histPhase (hc : ∀ t, t < N → (c t).1 ≤ (c t).2 ∧ (c t).2 ≤ size) (hsz : size < 2 ^ 32) (hne : inb < fresh) (m : Loc → BitVec 32)
    (hv : ∀ i, i < size → (m (inb, i)).toNat < bc) :
    (∀ m', Phase.Ends (N, histTask c bc inb fresh) m m' →
      (∀ t b, t < N → b < bc → m' (fresh + t, b) = BitVec.ofNat 32 (eqC (fun i => (m (inb, i)).toNat) b (c t).1 (c t).2)) ∧
      ∀ l : Loc, (∀ t, t < N → l ∉ histCells bc fresh t) → m' l = m l) ∧
    ∀ ok : Bool → Loc → Prop, (∀ i, i < size → ok false (inb, i)) → (∀ w t b, t < N → b < bc → ok w (fresh + t, b)) →
      Phase.Safe (N, histTask c bc inb fresh) ok m := by
  constructor
  · intro m' he
    obtain ⟨h1, h2⟩ := phase_spec (R := fun t => {l | l ∈ cells inb 0 size ∨ l ∈ histCells bc fresh t}) (W := histCells bc fresh)
      (hist_disj hne) (fun t ht => histTask_wp (hc t ht) hsz hne m hv) he
    refine ⟨fun t b ht hb => ?_, h2⟩
    obtain ⟨mi, h3, h4, _⟩ := h1 t ht
    rw [h4 _ ⟨rfl, Nat.zero_le _, hb⟩]
    exact h3 b hb
  · intro ok ho1 ho2
    refine phase_safe (R := fun t => {l | l ∈ cells inb 0 size ∨ l ∈ histCells bc fresh t}) (W := histCells bc fresh)
      (hist_disj hne) (fun t ht => histTask_wp (hc t ht) hsz hne m hv) ?_ ?_
    · rintro t ht ⟨b, i⟩ (⟨h1, _, h3⟩ | ⟨h1, _, h3⟩)
      · simp only at h1 h3; subst h1; exact ho1 i h3
      · simp only at h1 h3; subst h1; exact ho2 _ t i ht h3
    · rintro t ht ⟨b, i⟩ ⟨h1, _, h3⟩
      simp only at h1 h3; subst h1; exact ho2 _ t i ht h3

/-! ### Third phase -/

/-- Locations written when the permutation is stored: the histogram of the task and the positions of
its elements -/
def permW (c : Nat × Nat) (bc fresh t permb : Nat) (ps : Nat → Nat) : Set Loc :=
  {l | l ∈ histCells bc fresh t ∨ ∃ i, c.1 ≤ i ∧ i < c.2 ∧ l = (permb, ps i)}

theorem permTask_wp {t permb : Nat} (hc : (c t).1 ≤ (c t).2 ∧ (c t).2 ≤ size) (hsz : size < 2 ^ 32) (hne : inb < fresh)
    (hne2 : permb < fresh) (hne3 : inb ≠ permb) (m : Loc → BitVec 32)
    (hv : ∀ i, i < size → (m (inb, i)).toNat < bc) (base : Nat → Nat)
    (hb : ∀ b, b < bc → m (fresh + t, b) = BitVec.ofNat 32 (base b)) (ps : Nat → Nat)
    (hps : ∀ i, (c t).1 ≤ i → i < (c t).2 → ps i = base (m (inb, i)).toNat + eqC (fun i => (m (inb, i)).toNat) (m (inb, i)).toNat (c t).1 i)
    (hlt : ∀ i, i < size → ps i < size) (hinj : ∀ i j, i < size → j < size → ps i = ps j → i = j) :
    wp {l | l ∈ cells inb 0 size ∨ l ∈ histCells bc fresh t} (permW (c t) bc fresh t permb ps) (permTask c inb permb fresh t) m
      (fun _ m' => ∀ i, (c t).1 ≤ i → i < (c t).2 → m' (permb, ps i) = BitVec.ofNat 32 i) := by
  unfold permTask
  generalize c t = r at *
  rw [forNe_eq _ (by omega) (by omega)]
  unfold forLt
  refine wp_mono (wp_loop (fun k _ m' =>
    (∀ b, b < bc → m' (fresh + t, b) = BitVec.ofNat 32 (base b + eqC (fun i => (m (inb, i)).toNat) b r.1 (r.1 + k))) ∧
    (∀ i, r.1 ≤ i → i < r.1 + k → m' (permb, ps i) = BitVec.ofNat 32 i) ∧ ∀ i, m' (inb, i) = m (inb, i)) ?_ ?_) ?_
  · refine ⟨fun b h => ?_, fun i h1 h2 => by omega, fun _ => rfl⟩
    rw [hb b h, eqC_self (by omega)]; rfl
  · rintro k _ m1 hk ⟨h1, h2, h3⟩
    rw [wp_bind]
    refine wp_get (Or.inl ⟨rfl, by simp only; omega, by simp only; omega⟩) ?_
    rw [wp_bind, h3]
    have hvi := hv (r.1 + k) (by omega)
    refine wp_get (Or.inr ⟨rfl, Nat.zero_le _, hvi⟩) ?_
    rw [h1 _ hvi, ← hps _ (by omega) (by omega), wp_bind]
    have hp := hlt (r.1 + k) (by omega)
    have hto : (BitVec.ofNat 32 (ps (r.1 + k))).toNat = ps (r.1 + k) := by
      rw [BitVec.toNat_ofNat]; exact Nat.mod_eq_of_lt (by omega)
    refine wp_put (Or.inl ⟨rfl, Nat.zero_le _, hvi⟩) ?_
    rw [hto]
    refine wp_put (Or.inr ⟨r.1 + k, by omega, by omega, rfl⟩) ⟨fun b hb' => ?_, fun i hi1 hi2 => ?_, fun i => ?_⟩
    · have hn1 : (fresh + t, b) ≠ (permb, ps (r.1 + k)) := fun h => by have := congrArg Prod.fst h; simp only at this; omega
      simp only [upd, if_neg hn1]
      rw [← Nat.add_assoc, eqC_succ (by omega)]
      by_cases e : b = (m (inb, r.1 + k)).toNat
      · subst e
        simp only [if_true]
        rw [ofNat_succ, hps _ (by omega) (by omega), Nat.add_assoc]
      · have hn : (fresh + t, b) ≠ (fresh + t, (m (inb, r.1 + k)).toNat) := fun h => e (congrArg Prod.snd h)
        rw [if_neg hn, if_neg (fun h => e h.symm), h1 b hb', Nat.add_zero]
    · by_cases e : i = r.1 + k
      · subst e; simp only [upd, if_true]
      · have hn1 : (permb, ps i) ≠ (permb, ps (r.1 + k)) := fun h =>
          e (hinj i _ (by omega) (by omega) (congrArg Prod.snd h))
        have hn2 : (permb, ps i) ≠ (fresh + t, (m (inb, r.1 + k)).toNat) := fun h => by have := congrArg Prod.fst h; simp only at this; omega
        simp only [upd, if_neg hn1, if_neg hn2]
        exact h2 i hi1 (by omega)
    · have hn1 : (inb, i) ≠ (permb, ps (r.1 + k)) := fun h => hne3 (congrArg Prod.fst h)
      have hn2 : (inb, i) ≠ (fresh + t, (m (inb, r.1 + k)).toNat) := fun h => by have := congrArg Prod.fst h; simp only at this; omega
      simp only [upd, if_neg hn1, if_neg hn2]
      exact h3 i
  · rintro _ m1 ⟨_, h2, _⟩
    rw [show r.1 + (r.2 - r.1) = r.2 by omega] at h2
    exact h2

theorem permPhase {permb : Nat} (hc : ∀ t, t < N → (c t).1 ≤ (c t).2 ∧ (c t).2 ≤ size) (hsplit : Split size N (fun t => (c t).1) (fun t => (c t).2))
    (hsz : size < 2 ^ 32) (hne : inb < fresh)
    (hne2 : permb < fresh) (hne3 : inb ≠ permb) (m : Loc → BitVec 32)
    (hv : ∀ i, i < size → (m (inb, i)).toNat < bc) (base : Nat → Nat → Nat)
    (hb : ∀ t b, t < N → b < bc → m (fresh + t, b) = BitVec.ofNat 32 (base t b)) (ps : Nat → Nat)
    (hps : ∀ t i, t < N → (c t).1 ≤ i → i < (c t).2 → ps i = base t (m (inb, i)).toNat + eqC (fun i => (m (inb, i)).toNat) (m (inb, i)).toNat (c t).1 i)
    (hlt : ∀ i, i < size → ps i < size) (hinj : ∀ i j, i < size → j < size → ps i = ps j → i = j) :
    (∀ m', Phase.Ends (N, permTask c inb permb fresh) m m' →
      (∀ i, i < size → m' (permb, ps i) = BitVec.ofNat 32 i) ∧
      ∀ l : Loc, l.1 < fresh → l ∉ cells permb 0 size → m' l = m l) ∧
    ∀ ok : Bool → Loc → Prop, (∀ i, i < size → ok false (inb, i)) → (∀ w t b, t < N → b < bc → ok w (fresh + t, b)) →
      (∀ i, i < size → ok true (permb, i)) →
      Phase.Safe (N, permTask c inb permb fresh) ok m := by
  have hd : ∀ i j, i < N → j < N → i ≠ j → ∀ l : Loc, l ∈ permW (c i) bc fresh i permb ps →
      l ∉ {l : Loc | l ∈ cells inb 0 size ∨ l ∈ histCells bc fresh j} ∧ l ∉ permW (c j) bc fresh j permb ps := by
    rintro i j hi hj hij l (hl | ⟨x, h1, h2, rfl⟩)
    · refine ⟨(hist_disj (N := N) hne i j hi hj hij l hl).1, ?_⟩
      rintro (h | ⟨x, _, _, rfl⟩)
      · exact (hist_disj (N := N) (size := size) hne i j hi hj hij l hl).2 h
      · have := hl.1; simp only at this; omega
    · constructor
      · rintro (⟨h, _⟩ | ⟨h, _⟩)
        · exact hne3 h.symm
        · simp only at h; omega
      · rintro (⟨h, _⟩ | ⟨y, h3, h4, h⟩)
        · simp only at h; omega
        · have hx := (hc i hi).2
          have hy := (hc j hj).2
          have e := hinj x y (by omega) (by omega) (congrArg Prod.snd h)
          subst e
          exact hsplit.disj i j hi hj hij x h1 h2 ⟨h3, h4⟩
  have hwp := fun t ht => permTask_wp (hc t ht) hsz hne hne2 hne3 m hv (base t) (fun b hb' => hb t b ht hb') ps (fun i => hps t i ht) hlt hinj
  constructor
  · intro m' he
    obtain ⟨h1, h2⟩ := phase_spec (R := fun t => {l | l ∈ cells inb 0 size ∨ l ∈ histCells bc fresh t})
      (W := fun t => permW (c t) bc fresh t permb ps) hd hwp he
    refine ⟨fun i hi => ?_, fun l hl hl2 => h2 l ?_⟩
    · obtain ⟨t, ht, h3, h4⟩ := hsplit.cover i hi
      obtain ⟨mi, h5, h6, _⟩ := h1 t ht
      rw [h6 _ (Or.inr ⟨i, h3, h4, rfl⟩)]
      exact h5 i h3 h4
    · rintro t ht (⟨h, _⟩ | ⟨i, h3, h4, rfl⟩)
      · omega
      · have := (hc t ht).2
        exact hl2 ⟨rfl, Nat.zero_le _, hlt i (by omega)⟩
  · intro ok ho1 ho2 ho3
    refine phase_safe (R := fun t => {l | l ∈ cells inb 0 size ∨ l ∈ histCells bc fresh t})
      (W := fun t => permW (c t) bc fresh t permb ps) hd hwp ?_ ?_
    · rintro t ht ⟨b, i⟩ (⟨h1, _, h3⟩ | ⟨h1, _, h3⟩)
      · simp only at h1 h3; subst h1; exact ho1 i h3
      · simp only at h1 h3; subst h1; exact ho2 _ t i ht h3
    · rintro t ht ⟨b, i⟩ (⟨h1, _, h3⟩ | ⟨x, h1, h2, h3⟩)
      · simp only at h1 h3; subst h1; exact ho2 _ t i ht h3
      · rw [h3]
        have := (hc t ht).2
        exact ho3 _ (hlt x (by omega))

end

/-! ### Accumulation -/

section
variable {n tpg bs bc fresh : Nat} {C : Nat → Nat → Nat}

/-- Number of elements of group `g` in bucket `b` -/
def groupC (C : Nat → Nat → Nat) (tpg g b : Nat) : Nat := sumN (fun j => C (g * tpg + j) b) tpg

/-- Value of a counter after the accumulation -/
def finalV (C : Nat → Nat → Nat) (tpg bs t b : Nat) : Nat :=
  t / tpg * bs + sumN (groupC C tpg (t / tpg)) b + sumN (fun j => C (t / tpg * tpg + j) b) (t % tpg)

/-- Counters handled before reaching task `j` of group `g` in bucket `b` -/
def Done (tpg g b j t b' : Nat) : Prop := t / tpg < g ∨ t / tpg = g ∧ (b' < b ∨ b' = b ∧ t % tpg < j)

open Classical in
/-- The counters during the accumulation -/
def Acc (n tpg bs bc fresh : Nat) (C : Nat → Nat → Nat) (g b j : Nat) (m : Loc → BitVec 32) : Prop :=
  ∀ t b', t < n * tpg → b' < bc → m (fresh + t, b') = BitVec.ofNat 32 (if Done tpg g b j t b' then finalV C tpg bs t b' else C t b')

theorem Acc.congr {g b j g' b1 j' : Nat} {m : Loc → BitVec 32} (h : Acc n tpg bs bc fresh C g b j m)
    (hd : ∀ t b', t < n * tpg → b' < bc → (Done tpg g b j t b' ↔ Done tpg g' b1 j' t b')) : Acc n tpg bs bc fresh C g' b1 j' m := by
  intro t b' ht hb
  rw [h t b' ht hb, show Done tpg g b j t b' = Done tpg g' b1 j' t b' from propext (hd t b' ht hb)]

theorem task_index (htp : 0 < tpg) {g j : Nat} (hg : g < n) (hj : j < tpg) :
    g * tpg + j < n * tpg ∧ (g * tpg + j) / tpg = g ∧ (g * tpg + j) % tpg = j := by
  refine ⟨?_, ?_, ?_⟩
  · have : (g + 1) * tpg ≤ n * tpg := Nat.mul_le_mul_right _ hg
    rw [Nat.add_mul] at this; omega
  · rw [Nat.div_eq_iff htp]; omega
  · rw [Nat.add_comm, Nat.add_mul_mod_self_right, Nat.mod_eq_of_lt hj]

theorem accInner_wp (htp : 0 < tpg) {g b : Nat} (hg : g < n) (hb : b < bc) (hgb : g * bs < 2 ^ 32) {R W : Set Loc}
    (hR : ∀ t b', t < n * tpg → b' < bc → (fresh + t, b') ∈ R) (hW : ∀ t b', t < n * tpg → b' < bc → (fresh + t, b') ∈ W)
    {m : Loc → BitVec 32} (h : Acc n tpg bs bc fresh C g b 0 m) :
    wp R W (Prog.loop tpg (0 : BitVec 32) (accInner tpg bs fresh g b (BitVec.ofNat 32 (sumN (groupC C tpg g) b)))) m
      (fun sum m' => sum = BitVec.ofNat 32 (groupC C tpg g b) ∧ Acc n tpg bs bc fresh C g (b + 1) 0 m' ∧
        ∀ l : Loc, l.1 < fresh → m' l = m l) := by
  refine wp_mono (wp_loop (fun j sum m' => sum = BitVec.ofNat 32 (sumN (fun j => C (g * tpg + j) b) j) ∧
    Acc n tpg bs bc fresh C g b j m' ∧ ∀ l : Loc, l.1 < fresh → m' l = m l) ?_ ?_) ?_
  · exact ⟨rfl, h, fun _ _ => rfl⟩
  · rintro j sum m1 hj ⟨h1, h2, h3⟩
    obtain ⟨hi1, hi2, hi3⟩ := task_index htp hg hj
    unfold accInner
    rw [wp_bind]
    refine wp_get (hR _ _ hi1 hb) ?_
    rw [wp_bind]
    refine wp_put (hW _ _ hi1 hb) ⟨?_, ?_, ?_⟩
    · have hnd : ¬ Done tpg g b j (g * tpg + j) b := by unfold Done; rw [hi2, hi3]; omega
      rw [h2 _ _ hi1 hb, if_neg hnd, h1, ← BitVec.ofNat_add]
      rfl
    · intro t b' ht hb'
      by_cases e : t = g * tpg + j ∧ b' = b
      · obtain ⟨rfl, rfl⟩ := e
        have hd : Done tpg g b' (j + 1) (g * tpg + j) b' := by unfold Done; rw [hi2, hi3]; omega
        simp only [upd, if_true, if_pos hd]
        rw [h1, mul32_eq hgb, ← BitVec.ofNat_add, ← BitVec.ofNat_add]
        unfold finalV
        rw [hi2, hi3]
      · have hn : (fresh + t, b') ≠ (fresh + (g * tpg + j), b) := fun h => e ⟨by
          have := congrArg Prod.fst h; simp only at this; omega, congrArg Prod.snd h⟩
        simp only [upd, if_neg hn]
        rw [h2 t b' ht hb']
        have hiff : Done tpg g b j t b' ↔ Done tpg g b (j + 1) t b' := by
          unfold Done
          constructor
          · omega
          · rintro (h | ⟨h, h' | ⟨h', h''⟩⟩)
            · exact Or.inl h
            · exact Or.inr ⟨h, Or.inl h'⟩
            · refine Or.inr ⟨h, Or.inr ⟨h', ?_⟩⟩
              have : t % tpg ≠ j := fun e' => e ⟨by
                have := Nat.div_add_mod t tpg
                rw [h, e', Nat.mul_comm] at this
                exact this.symm, h'⟩
              omega
        rw [show Done tpg g b j t b' = Done tpg g b (j + 1) t b' from propext hiff]
    · intro l hl
      have hn : l ≠ (fresh + (g * tpg + j), b) := fun h => by rw [h] at hl; simp only at hl; omega
      simp only [upd, if_neg hn]
      exact h3 l hl
  · rintro sum m1 ⟨h1, h2, h3⟩
    refine ⟨h1, h2.congr ?_, h3⟩
    intro t b' ht hb'
    have := Nat.mod_lt t htp
    unfold Done
    omega

/-- The four numbers of entry `k` -/
def entry (m : Loc → BitVec 32) (ob k : Nat) : List (BitVec 32) := [m (ob, 4 * k), m (ob, 4 * k + 1), m (ob, 4 * k + 2), m (ob, 4 * k + 3)]

/-- Nonempty buckets before `b` -/
def nonEmpty (S : Nat → Nat) (b : Nat) : List Nat := (List.range b).filter fun b' => 0 < S b'

theorem nonEmpty_length (S : Nat → Nat) (b : Nat) : (nonEmpty S b).length ≤ b := by
  unfold nonEmpty
  have := List.length_filter_le (fun b' => decide (0 < S b')) (List.range b)
  rw [List.length_range] at this; exact this

theorem nonEmpty_succ (S : Nat → Nat) (b : Nat) : nonEmpty S (b + 1) = nonEmpty S b ++ if 0 < S b then [b] else [] := by
  unfold nonEmpty; rw [List.range_succ, List.filter_append]; congr 1
  by_cases h : 0 < S b <;> simp [h]

/-- Description of a bucket -/
def descr (S : Nat → Nat) (b : Nat) : List (BitVec 32) := [BitVec.ofNat 32 b, BitVec.ofNat 32 (sumN S b), BitVec.ofNat 32 (S b), 0]

/-- The reported buckets, once the buckets before `b` have been handled -/
def Offs (n : Nat) (offs : Option Nat) (S : Nat → Nat) (b : Nat) (uc : BitVec 32) (m : Loc → BitVec 32) : Prop :=
  if n = 1 ∧ offs.isSome then
    uc = BitVec.ofNat 32 (nonEmpty S b).length ∧
    ∀ ob, offs = some ob → (List.range (nonEmpty S b).length).map (entry m ob) = (nonEmpty S b).map (descr S)
  else uc = 0

theorem putEntry_wp {ob k : Nat} (hk : k < 2 ^ 30) {b off cn : BitVec 32} {R W : Set Loc}
    (hW : ∀ i, i < 4 → (ob, 4 * k + i) ∈ W) {m : Loc → BitVec 32} :
    wp R W (putEntry ob (BitVec.ofNat 32 k) b off cn) m (fun _ m' => entry m' ob k = [b, off, cn, 0] ∧
      ∀ l : Loc, (l.1 ≠ ob ∨ l.2 < 4 * k) → m' l = m l) := by
  have h0 : (BitVec.ofNat 32 k * 4).toNat = 4 * k := by
    rw [BitVec.toNat_mul, BitVec.toNat_ofNat, show (4 : BitVec 32).toNat = 4 from rfl]; omega
  have h1 : (BitVec.ofNat 32 k * 4 + 1).toNat = 4 * k + 1 := by
    rw [BitVec.toNat_add, h0, show (1 : BitVec 32).toNat = 1 from rfl]; omega
  have h2 : (BitVec.ofNat 32 k * 4 + 2).toNat = 4 * k + 2 := by
    rw [BitVec.toNat_add, h0, show (2 : BitVec 32).toNat = 2 from rfl]; omega
  have h3 : (BitVec.ofNat 32 k * 4 + 3).toNat = 4 * k + 3 := by
    rw [BitVec.toNat_add, h0, show (3 : BitVec 32).toNat = 3 from rfl]; omega
  unfold putEntry
  rw [h0, h1, h2, h3, wp_bind]
  refine wp_put (hW 0 (by omega)) ?_
  rw [wp_bind]
  refine wp_put (hW 1 (by omega)) ?_
  rw [wp_bind]
  refine wp_put (hW 2 (by omega)) ?_
  refine wp_put (hW 3 (by omega)) ⟨?_, ?_⟩
  · simp [entry, upd]
  · rintro ⟨b', i⟩ h
    simp only at h
    have e : ∀ j, (b', i) ≠ (ob, 4 * k + j) := fun j h' => by
      have h1 := congrArg Prod.fst h'
      have h2 := congrArg Prod.snd h'
      simp only at h1 h2
      rcases h with h | h
      · exact h h1
      · omega
    simp only [upd, if_neg (e 0), if_neg (e 1), if_neg (e 2), if_neg (e 3), show (b', i) ≠ (ob, 4 * k) from e 0, if_false]

theorem entry_congr {m m' : Loc → BitVec 32} {ob k : Nat} (h : ∀ i, i < 4 → m' (ob, 4 * k + i) = m (ob, 4 * k + i)) : entry m' ob k = entry m ob k := by
  unfold entry
  rw [h 1 (by omega), h 2 (by omega), h 3 (by omega), show m' (ob, 4 * k) = m (ob, 4 * k) from h 0 (by omega)]

theorem accBucket_wp (htp : 0 < tpg) {g b : Nat} (hg : g < n) (hb : b < bc) (hgb : g * bs < 2 ^ 32) {R W : Set Loc}
    (hR : ∀ t b', t < n * tpg → b' < bc → (fresh + t, b') ∈ R) (hW : ∀ t b', t < n * tpg → b' < bc → (fresh + t, b') ∈ W)
    {offs : Option Nat} (hoffs : ∀ ob, offs = some ob → ob < fresh ∧ bc ≤ 2 ^ 30 ∧ (n = 1 → ∀ i, i < 4 * bc → (ob, i) ∈ W))
    (hS : groupC C tpg g b < 2 ^ 32)
    {m : Loc → BitVec 32} (h : Acc n tpg bs bc fresh C g b 0 m) {uc : BitVec 32} (ho : Offs n offs (groupC C tpg 0) b uc m) :
    wp R W (accBucket n tpg bs fresh offs g b (BitVec.ofNat 32 (sumN (groupC C tpg g) b), uc)) m
      (fun s m' => s.1 = BitVec.ofNat 32 (sumN (groupC C tpg g) (b + 1)) ∧ Acc n tpg bs bc fresh C g (b + 1) 0 m' ∧
        Offs n offs (groupC C tpg 0) (b + 1) s.2 m') := by
  unfold accBucket
  rw [wp_bind]
  refine wp_mono (accInner_wp htp hg hb hgb hR hW h) ?_
  rintro sum m1 ⟨h1, h2, h3⟩
  rw [wp_bind]
  have hsum : BitVec.ofNat 32 (sumN (groupC C tpg g) b) + sum = BitVec.ofNat 32 (sumN (groupC C tpg g) (b + 1)) := by
    rw [h1, ← BitVec.ofNat_add]; rfl
  have hsn : sum.toNat = groupC C tpg g b := by rw [h1, BitVec.toNat_ofNat]; exact Nat.mod_eq_of_lt hS
  rw [hsn]
  by_cases hn : n = 1
  · have hg0 : g = 0 := by omega
    subst hg0
    cases offs with
    | none =>
      have hu : uc = 0 := by simpa [Offs] using ho
      have : ∀ p : Prog Loc (BitVec 32) (BitVec 32), p = .pure uc →
          wp R W p m1 (fun uc m' => wp R W (Prog.pure (BitVec.ofNat 32 (sumN (groupC C tpg 0) b) + sum, uc)) m'
            fun s m' => s.1 = BitVec.ofNat 32 (sumN (groupC C tpg 0) (b + 1)) ∧ Acc n tpg bs bc fresh C 0 (b + 1) 0 m' ∧
              Offs n none (groupC C tpg 0) (b + 1) s.2 m') := by
        rintro p rfl
        exact ⟨hsum, h2, by simpa [Offs] using hu⟩
      apply this
      split <;> rfl
    | some ob =>
      obtain ⟨hob, hbc, hob2⟩ := hoffs ob rfl
      have hob2 := hob2 hn
      rw [Offs, if_pos ⟨hn, rfl⟩] at ho
      obtain ⟨hu, he⟩ := ho
      have hlen := nonEmpty_length (groupC C tpg 0) b
      by_cases hp : 0 < groupC C tpg 0 b
      · rw [if_pos ⟨hn, hp⟩]
        simp only [Option.elim]
        rw [wp_bind, hu]
        refine wp_mono (putEntry_wp (by omega) (fun i hi => hob2 _ (by omega))) ?_
        rintro _ m2 ⟨h4, h5⟩
        refine ⟨hsum, ?_, ?_⟩
        · intro t b' ht hb'
          rw [h5 _ (Or.inl (by simp only; omega))]
          exact h2 t b' ht hb'
        · rw [Offs, if_pos ⟨hn, rfl⟩, nonEmpty_succ, if_pos hp, List.length_append]
          refine ⟨ofNat_succ _, ?_⟩
          intro ob' hob'
          cases hob'
          simp only [List.length_cons, List.length_nil, Nat.zero_add]
          rw [List.range_succ, List.map_append, List.map_append]
          congr 1
          · rw [← he ob rfl]
            apply List.map_congr_left
            intro k hk
            rw [List.mem_range] at hk
            apply entry_congr
            intro i hi
            rw [h5 _ (Or.inr (by simp only; omega)), h3 _ hob]
          · simp only [List.map_cons, List.map_nil]
            rw [h4, h1]
            rfl
      · rw [if_neg (fun h => hp h.2)]
        refine ⟨hsum, h2, ?_⟩
        rw [Offs, if_pos ⟨hn, rfl⟩, nonEmpty_succ, if_neg hp, List.append_nil]
        refine ⟨hu, fun ob' hob' => ?_⟩
        cases hob'
        rw [← he ob rfl]
        apply List.map_congr_left
        intro k hk
        exact entry_congr (fun i hi => h3 _ hob)
  · rw [if_neg (fun h => hn h.1)]
    refine ⟨hsum, h2, ?_⟩
    rw [Offs, if_neg (fun h => hn h.1)] at ho ⊢
    exact ho

/-- Locations of the accumulation step -/
def accR (n tpg bc fresh : Nat) : Set Loc := {l | ∃ t b, t < n * tpg ∧ b < bc ∧ l = (fresh + t, b)}
@[inherit_doc accR] def accW (n tpg bc fresh : Nat) (offs : Option Nat) (cntb : Nat) : Set Loc :=
  {l | l ∈ accR n tpg bc fresh ∨ (n = 1 ∧ offs = some l.1 ∧ l.2 < 4 * bc) ∨ l = (cntb, 0)}

theorem accTask_wp (htp : 0 < tpg) (hgb : ∀ g, g < n → g * bs < 2 ^ 32)
    {offs : Option Nat} {cntb : Nat} (hoffs : ∀ ob, offs = some ob → ob < fresh ∧ bc ≤ 2 ^ 30 ∧ ob ≠ cntb) (hcnt : cntb < fresh)
    (hS : ∀ g b, g < n → b < bc → groupC C tpg g b < 2 ^ 32)
    {m : Loc → BitVec 32} (h : ∀ t b, t < n * tpg → b < bc → m (fresh + t, b) = BitVec.ofNat 32 (C t b)) :
    wp (accR n tpg bc fresh) (accW n tpg bc fresh offs cntb) (accTask n tpg bs bc fresh offs cntb 0) m
      (fun _ m' => (∀ t b, t < n * tpg → b < bc → m' (fresh + t, b) = BitVec.ofNat 32 (finalV C tpg bs t b)) ∧
        Offs n offs (groupC C tpg 0) bc (m' (cntb, 0)) m') := by
  unfold accTask
  rw [wp_bind]
  have hR : ∀ t b', t < n * tpg → b' < bc → (fresh + t, b') ∈ accR n tpg bc fresh := fun t b' h1 h2 => ⟨t, b', h1, h2, rfl⟩
  have hW : ∀ t b', t < n * tpg → b' < bc → (fresh + t, b') ∈ accW n tpg bc fresh offs cntb := fun t b' h1 h2 => Or.inl ⟨t, b', h1, h2, rfl⟩
  have ho : ∀ ob, offs = some ob → ob < fresh ∧ bc ≤ 2 ^ 30 ∧ (n = 1 → ∀ i, i < 4 * bc → (ob, i) ∈ accW n tpg bc fresh offs cntb) :=
    fun ob hob => ⟨(hoffs ob hob).1, (hoffs ob hob).2.1, fun hn i hi => Or.inr (Or.inl ⟨hn, hob, hi⟩)⟩
  refine wp_mono (wp_loop (fun g uc m' => Acc n tpg bs bc fresh C g 0 0 m' ∧
    Offs n offs (groupC C tpg 0) (if n = 1 then (if g = 0 then 0 else bc) else 0) uc m') ?_ ?_) ?_
  · constructor
    · intro t b ht hb
      rw [h t b ht hb, if_neg]
      rintro (h | ⟨_, h | ⟨_, h⟩⟩)
      · exact Nat.not_lt_zero _ h
      · exact Nat.not_lt_zero _ h
      · exact Nat.not_lt_zero _ h
    · unfold Offs
      split
      · rw [if_pos (by omega), if_pos rfl]
        exact ⟨rfl, fun _ _ => rfl⟩
      · rfl
  · rintro g uc m1 hg ⟨h1, h2⟩
    rw [wp_bind]
    refine wp_mono (wp_loop (fun b s m' => s.1 = BitVec.ofNat 32 (sumN (groupC C tpg g) b) ∧ Acc n tpg bs bc fresh C g b 0 m' ∧
      Offs n offs (groupC C tpg 0) b s.2 m') ?_ ?_) ?_
    · refine ⟨rfl, h1, ?_⟩
      unfold Offs at h2 ⊢
      split
      · rename_i hn
        rw [if_pos hn, if_pos hn.1, if_pos (by omega)] at h2
        exact h2
      · rename_i hn
        rw [if_neg hn] at h2
        exact h2
    · rintro b ⟨s1, s2⟩ m2 hb ⟨h3, h4, h5⟩
      simp only at h3 h5
      subst h3
      exact accBucket_wp htp hg hb (hgb g hg) hR hW ho (hS g b hg hb) h4 h5
    · rintro ⟨s1, s2⟩ m2 ⟨h3, h4, h5⟩
      refine ⟨h4.congr ?_, ?_⟩
      · intro t b' ht hb'
        unfold Done
        omega
      · simp only at h5
        rw [if_neg (show ¬ g + 1 = 0 by omega)]
        unfold Offs at h5 ⊢
        split
        · rename_i hn
          rw [if_pos hn] at h5
          rw [if_pos hn.1]
          exact h5
        · rename_i hn
          rw [if_neg hn] at h5
          exact h5
  · rintro uc m1 ⟨h1, h2⟩
    refine wp_put (Or.inr (Or.inr rfl)) ⟨fun t b ht hb => ?_, ?_⟩
    · have hn : (fresh + t, b) ≠ (cntb, 0) := fun h => by have := congrArg Prod.fst h; simp only at this; omega
      have hd : Done tpg n 0 0 t b := Or.inl (by rw [Nat.div_lt_iff_lt_mul htp]; exact ht)
      simp only [upd, if_neg hn]
      rw [h1 t b ht hb, if_pos hd]
    · simp only [upd, if_true]
      unfold Offs at h2 ⊢
      split
      · rename_i hn
        rw [if_pos hn, if_pos hn.1, if_neg (by omega)] at h2
        refine ⟨h2.1, fun ob hob => ?_⟩
        rw [← h2.2 ob hob]
        apply List.map_congr_left
        intro k hk
        apply entry_congr
        intro i hi
        have hn : (ob, 4 * k + i) ≠ (cntb, 0) := fun h => (hoffs ob hob).2.2 (congrArg Prod.fst h)
        simp only [upd, if_neg hn]
      · rename_i hn
        rw [if_neg hn] at h2
        exact h2

end

end Verif.Llvm
