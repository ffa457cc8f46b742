import Verif.Llvm.Split

/-!
# C25: mask compression (`LLVMThreadState::compress`, `/repo/src/llvm_ts.cpp:704-780`)
-/
namespace Verif.Llvm

open Verif.Par

/-! ### Model -/

/-- Counting the set entries of a block (llvm_ts.cpp:734-743).  The bytes of the mask are shown as
32-bit numbers (line 741: `(uint32_t) in[i]`). -/
def countTask (bs size inb sb index : Nat) : Prog Loc (BitVec 32) Unit :=
  (foldNe (splitRange bs size index).1 (splitRange bs size index).2 (0 : BitVec 32) fun i accum =>
    (Prog.get (inb, i)).bind fun x => .pure (accum + x)).bind fun accum =>
  Prog.put (sb, index) accum

/-- Writing the indices of the set entries (llvm_ts.cpp:758-776) -/
def compressTask (bs size inb : Nat) (scratch : Option Nat) (outb cntb index : Nat) : Prog Loc (BitVec 32) Unit :=
  (scratch.elim (.pure 0) fun sb => Prog.get (sb, index)).bind fun accum =>
  (foldNe (splitRange bs size index).1 (splitRange bs size index).2 accum fun i accum =>
    (Prog.get (inb, i)).bind fun value =>
    (if value ≠ 0 then Prog.put (outb, accum.toNat) (BitVec.ofNat 32 i) else .pure ()).bind fun _ =>
    .pure (accum + value)).bind fun accum =>
  if (splitRange bs size index).2 = size then Prog.put (cntb, 0) accum else .pure ()

/-- `LLVMThreadState::compress` (llvm_ts.cpp:704-786).  Buffer `cntb` holds the local variable
`count_out`, which is the return value. -/
def compress (workers ideal size inb outb cntb fresh : Nat) : Plan (BitVec 32) :=
  if size = 0 then .ok [] []
  else
    let p := poolSplit workers ideal size
    if p.2 > 1 then
      Plan.wrap (p.2, countTask p.1 size inb fresh) (fresh, p.2)
        (p.2, compressTask p.1 size inb (some fresh) outb cntb)
        (blockPrefix (intRed false 32 .add) 0 4 workers ideal p.2 p.2 true false fresh fresh (fresh + 1))
    else .ok [(p.2, compressTask p.1 size inb none outb cntb)] []

/-! ### Ranks -/

/-- Number of set entries among `lo .. hi-1` -/
def cnt (f : Nat → BitVec 32) (lo hi : Nat) : Nat := (slice f lo hi).countP (fun x => x ≠ 0)

section
variable {f : Nat → BitVec 32}

theorem cnt_self {lo hi : Nat} (h : hi ≤ lo) : cnt f lo hi = 0 := by simp [cnt, slice_self _ h]

theorem cnt_add {lo mid hi : Nat} (h1 : lo ≤ mid) (h2 : mid ≤ hi) : cnt f lo mid + cnt f mid hi = cnt f lo hi := by
  unfold cnt; rw [← slice_append f h1 h2, List.countP_append]

theorem cnt_succ {lo hi : Nat} (h : lo ≤ hi) : cnt f lo (hi + 1) = cnt f lo hi + if f hi ≠ 0 then 1 else 0 := by
  unfold cnt; rw [slice_succ f h, List.countP_append]; simp [List.countP_cons]

theorem cnt_le (lo hi : Nat) : cnt f lo hi ≤ hi - lo := by
  unfold cnt; have := List.countP_le_length (p := fun x => decide (x ≠ 0)) (l := slice f lo hi); rw [slice_length] at this; exact this

theorem cnt_mono {a b : Nat} (h : a ≤ b) : cnt f 0 a ≤ cnt f 0 b := by
  have := cnt_add (f := f) (Nat.zero_le a) h; omega

theorem cnt_sum {lo hi : Nat} (h : ∀ i, lo ≤ i → i < hi → f i = 0 ∨ f i = 1) : ((slice f lo hi).map BitVec.toNat).sum = cnt f lo hi := by
  unfold cnt
  have : ∀ l : List (BitVec 32), (∀ x, x ∈ l → x = 0 ∨ x = 1) → (l.map BitVec.toNat).sum = l.countP (fun x => x ≠ 0) := by
    intro l
    induction l with
    | nil => intro _; rfl
    | cons x l ih =>
      intro hl
      rw [List.map_cons, List.sum_cons, ih (fun y hy => hl y (List.mem_cons_of_mem _ hy)), List.countP_cons]
      rcases hl x List.mem_cons_self with rfl | rfl
      · simp
      · simp; omega
  apply this
  intro x hx
  unfold slice at hx
  rw [List.mem_map] at hx
  obtain ⟨k, hk, rfl⟩ := hx
  rw [List.mem_range] at hk
  exact h _ (by omega) (by omega)

end

/-! ### Tasks -/

section
variable {workers ideal size : Nat}

theorem step01 {f : Nat → BitVec 32} {i n : Nat} {acc : BitVec 32} (hf : f i = 0 ∨ f i = 1) (hacc : acc = BitVec.ofNat 32 n) :
    acc + f i = BitVec.ofNat 32 (n + if f i ≠ 0 then 1 else 0) := by
  subst hacc
  rcases hf with h | h <;> rw [h]
  · simp
  · simp [BitVec.ofNat_add]

theorem countTask_wp (h : SplitOk ideal size) {inb sb t : Nat} (ht : t < (poolSplit workers ideal size).2) (m : Loc → BitVec 32)
    (hf : ∀ i, i < size → m (inb, i) = 0 ∨ m (inb, i) = 1) :
    wp (cells inb 0 size) {l | l = (sb, t)} (countTask (poolSplit workers ideal size).1 size inb sb t) m
      (fun _ m' => m' (sb, t) = BitVec.ofNat 32 (cnt (fun i => m (inb, i))
        (splitRange (poolSplit workers ideal size).1 size t).1 (splitRange (poolSplit workers ideal size).1 size t).2)) := by
  obtain ⟨h1, h2, h3⟩ := poolSplit_le (workers := workers) h ht
  unfold countTask
  generalize splitRange (poolSplit workers ideal size).1 size t = c at *
  rw [foldNe_eq _ _ (by omega) (by omega), wp_bind]
  refine wp_mono (wp_loop (fun k a m' => m' = m ∧ a = BitVec.ofNat 32 (cnt (fun i => m (inb, i)) c.1 (c.1 + k))) ?_ ?_) ?_
  · exact ⟨rfl, by rw [cnt_self (by omega)]; rfl⟩
  · rintro k a _ hk ⟨rfl, ha⟩
    rw [wp_bind]
    refine wp_get ⟨rfl, by simp only; omega, by simp only; omega⟩ ⟨rfl, ?_⟩
    rw [← Nat.add_assoc, cnt_succ (by omega)]
    rename_i m1
    exact step01 (f := fun i => m1 (inb, i)) (hf _ (by omega)) ha
  · rintro a _ ⟨rfl, ha⟩
    refine wp_put rfl ?_
    simp only [upd, if_true]
    rw [ha, show c.1 + (c.2 - c.1) = c.2 by omega]

theorem countPhase (h : SplitOk ideal size) {inb sb : Nat} (hne : inb ≠ sb) (m : Loc → BitVec 32)
    (hf : ∀ i, i < size → m (inb, i) = 0 ∨ m (inb, i) = 1) :
    (∀ m', Phase.Ends ((poolSplit workers ideal size).2, countTask (poolSplit workers ideal size).1 size inb sb) m m' →
      (∀ t, t < (poolSplit workers ideal size).2 → m' (sb, t) = BitVec.ofNat 32 (cnt (fun i => m (inb, i))
        (splitRange (poolSplit workers ideal size).1 size t).1 (splitRange (poolSplit workers ideal size).1 size t).2)) ∧
      ∀ l, l ∉ cells sb 0 (poolSplit workers ideal size).2 → m' l = m l) ∧
    ∀ ok : Bool → Loc → Prop, (∀ i, i < size → ok false (inb, i)) → (∀ t, t < (poolSplit workers ideal size).2 → ok true (sb, t)) →
      Phase.Safe ((poolSplit workers ideal size).2, countTask (poolSplit workers ideal size).1 size inb sb) ok m := by
  have hd : ∀ i j, i < (poolSplit workers ideal size).2 → j < (poolSplit workers ideal size).2 → i ≠ j → ∀ l : Loc, l ∈ {l | l = (sb, i)} →
      l ∉ cells inb 0 size ∧ l ∉ ({l | l = (sb, j)} : Set Loc) := by
    rintro i j _ _ hij _ rfl
    exact ⟨fun h => hne h.1.symm, fun h => hij (congrArg Prod.snd (Set.mem_setOf_eq ▸ h))⟩
  constructor
  · intro m' he
    obtain ⟨h1, h2⟩ := phase_spec (R := fun _ => cells inb 0 size) (W := fun t => {l | l = (sb, t)}) hd
      (fun t ht => countTask_wp (workers := workers) h ht m hf) he
    refine ⟨fun t ht => ?_, fun l hl => h2 l ?_⟩
    · obtain ⟨mi, h3, h4, _⟩ := h1 t ht
      rw [h4 (sb, t) rfl]; exact h3
    · rintro t ht rfl
      exact hl ⟨rfl, Nat.zero_le _, ht⟩
  · intro ok hr hw
    refine phase_safe (R := fun _ => cells inb 0 size) (W := fun t => {l | l = (sb, t)}) hd
      (fun t ht => countTask_wp (workers := workers) h ht m hf) ?_ ?_
    · rintro t ht ⟨b, i⟩ ⟨h1, _, h3⟩
      simp only at h1 h3
      subst h1; exact hr i h3
    · rintro t ht _ rfl
      exact hw t ht

/-- Locations written by a task of the second phase -/
def compressW (c : Nat × Nat) (size : Nat) (f : Nat → BitVec 32) (outb cntb : Nat) : Set Loc :=
  {l | (l.1 = outb ∧ cnt f 0 c.1 ≤ l.2 ∧ l.2 < cnt f 0 c.2) ∨ (c.2 = size ∧ l = (cntb, 0))}

theorem compressTask_wp (h : SplitOk ideal size) {inb outb cntb t : Nat} {scratch : Option Nat}
    (ht : t < (poolSplit workers ideal size).2) (h1 : inb ≠ outb) (h2 : inb ≠ cntb) (h3 : outb ≠ cntb) (m : Loc → BitVec 32)
    (hf : ∀ i, i < size → m (inb, i) = 0 ∨ m (inb, i) = 1)
    (hs : scratch.elim (0 : BitVec 32) (fun sb => m (sb, t)) = BitVec.ofNat 32 (cnt (fun i => m (inb, i)) 0 (splitRange (poolSplit workers ideal size).1 size t).1)) :
    wp {l | l ∈ cells inb 0 size ∨ ∃ sb, scratch = some sb ∧ l = (sb, t)}
      (compressW (splitRange (poolSplit workers ideal size).1 size t) size (fun i => m (inb, i)) outb cntb)
      (compressTask (poolSplit workers ideal size).1 size inb scratch outb cntb t) m
      (fun _ m' =>
        (∀ i, (splitRange (poolSplit workers ideal size).1 size t).1 ≤ i → i < (splitRange (poolSplit workers ideal size).1 size t).2 → m (inb, i) ≠ 0 →
          m' (outb, cnt (fun i => m (inb, i)) 0 i) = BitVec.ofNat 32 i) ∧
        ((splitRange (poolSplit workers ideal size).1 size t).2 = size → m' (cntb, 0) = BitVec.ofNat 32 (cnt (fun i => m (inb, i)) 0 size))) := by
  obtain ⟨hl1, hl2, hl3⟩ := poolSplit_le (workers := workers) h ht
  unfold compressTask
  generalize splitRange (poolSplit workers ideal size).1 size t = c at *
  generalize hfg : (fun i => m (inb, i)) = f at *
  have hfi : ∀ i, m (inb, i) = f i := fun i => congrFun hfg i
  simp only [hfi] at hf
  simp only [hfi]
  rw [wp_bind]
  -- initial value of the accumulator
  have hinit : ∀ Q : BitVec 32 → (Loc → BitVec 32) → Prop, Q (BitVec.ofNat 32 (cnt f 0 c.1)) m →
      wp {l | l ∈ cells inb 0 size ∨ ∃ sb, scratch = some sb ∧ l = (sb, t)} (compressW c size f outb cntb)
        (scratch.elim (Prog.pure 0) fun sb => Prog.get (sb, t)) m Q := by
    intro Q hQ
    rw [← hs] at hQ
    cases scratch with
    | none => exact hQ
    | some sb => exact wp_get (Or.inr ⟨sb, rfl, rfl⟩) hQ
  apply hinit
  rw [foldNe_eq _ _ (by omega) (by omega), wp_bind]
  refine wp_mono (wp_loop (fun k a m' => a = BitVec.ofNat 32 (cnt f 0 (c.1 + k)) ∧
    (∀ i, c.1 ≤ i → i < c.1 + k → f i ≠ 0 → m' (outb, cnt f 0 i) = BitVec.ofNat 32 i) ∧ ∀ i, m' (inb, i) = f i) ?_ ?_) ?_
  · exact ⟨rfl, fun i h4 h5 => by omega, hfi⟩
  · rintro k a m1 hk ⟨ha, hd, hin⟩
    rw [wp_bind]
    refine wp_get (Or.inl ⟨rfl, by simp only; omega, by simp only; omega⟩) ?_
    rw [wp_bind, hin]
    have hnext : a + f (c.1 + k) = BitVec.ofNat 32 (cnt f 0 (c.1 + (k + 1))) := by
      rw [← Nat.add_assoc, cnt_succ (by omega)]
      exact step01 (hf _ (by omega)) ha
    have hsucc := cnt_succ (f := f) (Nat.zero_le (c.1 + k))
    have hcl := cnt_le (f := f) 0 (c.1 + k)
    have hto : a.toNat = cnt f 0 (c.1 + k) := by
      rw [ha, BitVec.toNat_ofNat]; exact Nat.mod_eq_of_lt (by omega)
    split
    · rename_i hne
      rw [if_pos hne] at hsucc
      have hm1 := cnt_mono (f := f) (show c.1 ≤ c.1 + k by omega)
      have hm2 := cnt_mono (f := f) (show c.1 + k + 1 ≤ c.2 by omega)
      refine wp_put (Or.inl ⟨rfl, by simp only; omega, by simp only; omega⟩) ⟨hnext, fun i hi1 hi2 hi3 => ?_, fun i => ?_⟩
      · by_cases e : i = c.1 + k
        · subst e
          simp only [upd, hto, if_true]
        · have hlt := cnt_mono (f := f) (show i + 1 ≤ c.1 + k by omega)
          have hs2 := cnt_succ (f := f) (Nat.zero_le i)
          rw [if_pos hi3] at hs2
          have hne : (outb, cnt f 0 i) ≠ (outb, a.toNat) := fun h => by have := congrArg Prod.snd h; simp only at this; omega
          simp only [upd, if_neg hne]
          exact hd i hi1 (by omega) hi3
      · have hne : (inb, i) ≠ (outb, a.toNat) := fun h => h1 (congrArg Prod.fst h)
        simp only [upd, if_neg hne]
        exact hin i
    · rename_i hne
      refine ⟨hnext, fun i hi1 hi2 hi3 => ?_, hin⟩
      by_cases e : i = c.1 + k
      · subst e; exact absurd hi3 hne
      · exact hd i hi1 (by omega) hi3
  · rintro a m1 ⟨ha, hd, hin⟩
    rw [show c.1 + (c.2 - c.1) = c.2 by omega] at ha hd
    split
    · rename_i he
      refine wp_put (Or.inr ⟨he, rfl⟩) ⟨fun i hi1 hi2 hi3 => ?_, fun _ => ?_⟩
      · have hne : (outb, cnt f 0 i) ≠ (cntb, 0) := fun h => h3 (congrArg Prod.fst h)
        simp only [upd, if_neg hne]
        exact hd i hi1 hi2 hi3
      · simp only [upd, if_true]
        rw [ha, he]
    · rename_i he
      exact ⟨hd, fun h => absurd h he⟩

theorem compressPhase (h : SplitOk ideal size) {inb outb cntb : Nat} {scratch : Option Nat}
    (h1 : inb ≠ outb) (h2 : inb ≠ cntb) (h3 : outb ≠ cntb) (hsb : ∀ sb, scratch = some sb → sb ≠ outb ∧ sb ≠ cntb) (m : Loc → BitVec 32)
    (hf : ∀ i, i < size → m (inb, i) = 0 ∨ m (inb, i) = 1)
    (hs : ∀ t, t < (poolSplit workers ideal size).2 → scratch.elim (0 : BitVec 32) (fun sb => m (sb, t)) =
      BitVec.ofNat 32 (cnt (fun i => m (inb, i)) 0 (splitRange (poolSplit workers ideal size).1 size t).1)) :
    (∀ m', Phase.Ends ((poolSplit workers ideal size).2, compressTask (poolSplit workers ideal size).1 size inb scratch outb cntb) m m' →
      (∀ i, i < size → m (inb, i) ≠ 0 → m' (outb, cnt (fun i => m (inb, i)) 0 i) = BitVec.ofNat 32 i) ∧
      m' (cntb, 0) = BitVec.ofNat 32 (cnt (fun i => m (inb, i)) 0 size) ∧
      ∀ l, l ∉ cells outb 0 (cnt (fun i => m (inb, i)) 0 size) → l ≠ (cntb, 0) → m' l = m l) ∧
    ∀ ok : Bool → Loc → Prop, (∀ i, i < size → ok false (inb, i)) →
      (∀ sb t, scratch = some sb → t < (poolSplit workers ideal size).2 → ok false (sb, t)) →
      (∀ k, k < cnt (fun i => m (inb, i)) 0 size → ok true (outb, k)) → ok true (cntb, 0) →
      Phase.Safe ((poolSplit workers ideal size).2, compressTask (poolSplit workers ideal size).1 size inb scratch outb cntb) ok m := by
  have hsplit := poolSplit_split (workers := workers) h
  have hfacts := fun t ht => poolSplit_facts (workers := workers) h (t := t) ht
  have hle := fun t ht => poolSplit_le (workers := workers) h (t := t) ht
  have hwp := fun t ht => compressTask_wp (workers := workers) h (t := t) ht h1 h2 h3 m hf (hs t ht)
  generalize poolSplit workers ideal size = p at *
  have hlast : ∀ t t', t < p.2 → t' < p.2 → t ≠ t' → (splitRange p.1 size t).2 = size → (splitRange p.1 size t').2 = size → False := by
    intro t t' ht ht' hne e1 e2
    have a := hle t ht
    have b := hle t' ht'
    exact hsplit.disj t t' ht ht' hne (size - 1) (by omega) (by omega) ⟨by omega, by omega⟩
  have hord : ∀ t t', t < p.2 → t' < p.2 → t < t' → (splitRange p.1 size t).2 ≤ (splitRange p.1 size t').1 := by
    intro t t' ht ht' hlt
    rw [(hfacts t ht).2.1, (hfacts t' ht').2.1]
    simp only
    have : (t + 1) * p.1 ≤ t' * p.1 := Nat.mul_le_mul_right _ hlt
    rw [Nat.add_mul] at this
    omega
  have hd : ∀ i j, i < p.2 → j < p.2 → i ≠ j → ∀ l : Loc, l ∈ compressW (splitRange p.1 size i) size (fun i => m (inb, i)) outb cntb →
      l ∉ {l : Loc | l ∈ cells inb 0 size ∨ ∃ sb, scratch = some sb ∧ l = (sb, j)} ∧
      l ∉ compressW (splitRange p.1 size j) size (fun i => m (inb, i)) outb cntb := by
    rintro i j hi hj hij ⟨b, k⟩ hl
    constructor
    · rintro (⟨e, _⟩ | ⟨sb, e1, e2⟩)
      · simp only at e
        rcases hl with ⟨e', _⟩ | ⟨_, e'⟩
        · simp only at e'; exact h1 (e.symm.trans e')
        · exact h2 (e.symm.trans (congrArg Prod.fst e'))
      · have e := congrArg Prod.fst e2
        simp only at e
        rcases hl with ⟨e', _⟩ | ⟨_, e'⟩
        · simp only at e'; exact (hsb sb e1).1 (e.symm.trans e')
        · exact (hsb sb e1).2 (e.symm.trans (congrArg Prod.fst e'))
    · intro hl'
      rcases hl with ⟨e1, e2, e3⟩ | ⟨e1, e2⟩
      · rcases hl' with ⟨_, g2, g3⟩ | ⟨_, g2⟩
        · simp only at e2 e3 g2 g3
          rcases Nat.lt_or_ge i j with hlt | hge
          · have := cnt_mono (f := fun i => m (inb, i)) (hord i j hi hj hlt); omega
          · have := cnt_mono (f := fun i => m (inb, i)) (hord j i hj hi (by omega)); omega
        · exact h3 (e1.symm.trans (congrArg Prod.fst g2))
      · rcases hl' with ⟨g1, _⟩ | ⟨g1, _⟩
        · exact h3 (g1.symm.trans (congrArg Prod.fst e2))
        · exact hlast i j hi hj hij e1 g1
  constructor
  · intro m' he
    obtain ⟨g1, g2⟩ := phase_spec (R := fun t => {l : Loc | l ∈ cells inb 0 size ∨ ∃ sb, scratch = some sb ∧ l = (sb, t)})
      (W := fun t => compressW (splitRange p.1 size t) size (fun i => m (inb, i)) outb cntb) hd hwp he
    refine ⟨fun i hi hne => ?_, ?_, fun l hl hl2 => g2 l ?_⟩
    · obtain ⟨t, ht, a1, a2⟩ := hsplit.cover i hi
      obtain ⟨mi, b1, b2, _⟩ := g1 t ht
      have hc1 := cnt_mono (f := fun i => m (inb, i)) a1
      have hc2 := cnt_mono (f := fun i => m (inb, i)) (show i + 1 ≤ _ from a2)
      rw [cnt_succ (Nat.zero_le _), if_pos hne] at hc2
      rw [b2 _ (Or.inl ⟨rfl, hc1, by simp only; omega⟩)]
      exact b1.1 i a1 a2 hne
    · obtain ⟨t, ht, a1, a2⟩ := hsplit.cover (size - 1) (by have := h.pos; omega)
      obtain ⟨mi, b1, b2, _⟩ := g1 t ht
      have e : (splitRange p.1 size t).2 = size := by have := hle t ht; omega
      rw [b2 _ (Or.inr ⟨e, rfl⟩)]
      exact b1.2 e
    · rintro t ht (⟨e1, e2, e3⟩ | ⟨e1, e2⟩)
      · have := cnt_mono (f := fun i => m (inb, i)) (hle t ht).2.1
        exact hl ⟨e1, Nat.zero_le _, by omega⟩
      · exact hl2 e2
  · intro ok ho1 ho2 ho3 ho4
    refine phase_safe (R := fun t => {l : Loc | l ∈ cells inb 0 size ∨ ∃ sb, scratch = some sb ∧ l = (sb, t)})
      (W := fun t => compressW (splitRange p.1 size t) size (fun i => m (inb, i)) outb cntb) hd hwp ?_ ?_
    · rintro t ht ⟨b, i⟩ (⟨e1, _, e3⟩ | ⟨sb, e1, e2⟩)
      · simp only at e1 e3; subst e1; exact ho1 i e3
      · rw [e2]; exact ho2 sb t e1 ht
    · rintro t ht ⟨b, k⟩ (⟨e1, e2, e3⟩ | ⟨e1, e2⟩)
      · simp only at e1 e3
        subst e1
        have := cnt_mono (f := fun i => m (inb, i)) (hle t ht).2.1
        exact ho3 k (by omega)
      · rw [e2]; exact ho4

end

/-! ### The property -/

/-- Reading the ranks as a list -/
theorem filter_eq_map (p : Nat → Bool) (out : Nat → BitVec 32) (rank : Nat → Nat) (h0 : rank 0 = 0)
    (hr : ∀ i, rank (i + 1) = rank i + if p i then 1 else 0) : ∀ n, (∀ i, i < n → p i = true → out (rank i) = BitVec.ofNat 32 i) →
    (List.range (rank n)).map out = ((List.range n).filter p).map (BitVec.ofNat 32) := by
  intro n
  induction n with
  | zero => intro _; simp [h0]
  | succ n ih =>
    intro h
    have ih := ih (fun i hi => h i (by omega))
    rw [hr, List.range_succ (n := n), List.filter_append]
    by_cases hp : p n = true
    · rw [if_pos hp, List.range_succ, List.map_append, List.map_append, ih]
      simp [hp, h n (by omega) hp]
    · rw [if_neg hp]
      simp [hp, ih]

/-- **C25.**  For every mask, size, number of threads and interleaving: the returned number is the
number of set entries, the output lists their indices in increasing order, memory accesses stay within
bounds, and nothing else is modified. -/
theorem C25_compress (workers ideal size inb outb cntb fresh : Nat) (hs : 0 < size) (hsum : size + ideal ≤ 2 ^ 32) (hid : 16 ≤ ideal) (hid' : ideal < 2 ^ 31)
    (h1 : inb ≠ outb) (h2 : inb ≠ cntb) (h3 : outb ≠ cntb) (hin : inb < fresh) (hout : outb < fresh) (hcnt : cntb < fresh) :
    ∃ ps as, compress workers ideal size inb outb cntb fresh = .ok ps as ∧
      ∀ m : Loc → BitVec 32, (∀ i, i < size → m (inb, i) = 0 ∨ m (inb, i) = 1) →
        let set := (List.range size).filter (fun i => m (inb, i) ≠ 0)
        Safe (fun w l => (w = false ∧ l.1 = inb ∧ l.2 < size) ∨ (w = true ∧ l.1 = outb ∧ l.2 < set.length) ∨ (w = true ∧ l = (cntb, 0)) ∨
            ∃ a, a ∈ as ∧ l.1 = a.1 ∧ l.2 < a.2) ps m ∧
        (∃ m', Ends ps m m') ∧
        ∀ m', Ends ps m m' →
          (m' (cntb, 0)).toNat = set.length ∧
          (List.range set.length).map (fun k => (m' (outb, k)).toNat) = set ∧
          ∀ l : Loc, l.1 < fresh → ¬ (l.1 = outb ∧ l.2 < set.length) → l ≠ (cntb, 0) → m' l = m l := by
  have hsp : SplitOk ideal size := ⟨hs, by omega, hsum⟩
  unfold compress
  rw [if_neg (by omega)]
  dsimp only
  -- consequences of the last phase
  have fin : ∀ m m' : Loc → BitVec 32,
      ((∀ i, i < size → m (inb, i) ≠ 0 → m' (outb, cnt (fun i => m (inb, i)) 0 i) = BitVec.ofNat 32 i) ∧
        m' (cntb, 0) = BitVec.ofNat 32 (cnt (fun i => m (inb, i)) 0 size)) →
      (m' (cntb, 0)).toNat = ((List.range size).filter (fun i => m (inb, i) ≠ 0)).length ∧
      (List.range ((List.range size).filter (fun i => m (inb, i) ≠ 0)).length).map (fun k => (m' (outb, k)).toNat) =
        (List.range size).filter (fun i => m (inb, i) ≠ 0) ∧
      ((List.range size).filter (fun i => m (inb, i) ≠ 0)).length = cnt (fun i => m (inb, i)) 0 size := by
    rintro m m' ⟨a, b⟩
    have hmap := filter_eq_map (fun i => m (inb, i) ≠ 0) (fun k => m' (outb, k)) (cnt (fun i => m (inb, i)) 0) (cnt_self (le_refl _))
      (fun i => by rw [cnt_succ (Nat.zero_le _)]; simp) size (fun i hi hp => a i hi (by simpa using hp))
    have hlen := congrArg List.length hmap
    rw [List.length_map, List.length_map, List.length_range] at hlen
    have hcl := cnt_le (f := fun i => m (inb, i)) 0 size
    refine ⟨?_, ?_, hlen.symm⟩
    · rw [b, BitVec.toNat_ofNat, Nat.mod_eq_of_lt (by omega)]; exact hlen
    · rw [← hlen]
      have := congrArg (List.map BitVec.toNat) hmap
      rw [List.map_map, List.map_map] at this
      refine Eq.trans this ?_
      conv_rhs => rw [← List.map_id ((List.range size).filter _)]
      apply List.map_congr_left
      intro i hi
      rw [List.mem_filter, List.mem_range] at hi
      simp only [Function.comp, BitVec.toNat_ofNat, id]
      exact Nat.mod_eq_of_lt (by omega)
  have hlen : ∀ m : Loc → BitVec 32, ((List.range size).filter (fun i => m (inb, i) ≠ 0)).length = cnt (fun i => m (inb, i)) 0 size := by
    intro m
    unfold cnt slice
    rw [List.countP_map, ← List.countP_eq_length_filter, Nat.sub_zero]
    congr 1
    funext i
    simp
  by_cases hb : (poolSplit workers ideal size).2 > 1
  · rw [if_pos hb]
    have hfacts := fun t ht => poolSplit_facts (workers := workers) hsp (t := t) ht
    have hlast := poolSplit_last (workers := workers) hsp
    have hsplitW : 16 ≤ (poolSplit workers ideal size).1 := by
      unfold poolSplit at hb ⊢
      split
      · exact hid
      · rename_i hc; rw [if_neg hc] at hb; simp at hb
    have hcount := fun m hf => countPhase (workers := workers) hsp (show inb ≠ fresh by omega) m hf
    have hcomp := fun m hf hs' => compressPhase (workers := workers) hsp (scratch := some fresh) h1 h2 h3
      (fun sb hsb => by cases hsb; exact ⟨by omega, by omega⟩) m hf hs'
    generalize poolSplit workers ideal size = p at *
    -- bound on the number of blocks
    have hbound : p.2 + p.2 ≤ 2 ^ 32 := by
      have h5 := (hfacts (p.2 - 1) (by omega)).2.2.2
      have h6 : (p.2 - 1) * 16 ≤ (p.2 - 1) * p.1 := Nat.mul_le_mul_left _ hsplitW
      omega
    obtain ⟨ps, as, hp, hspec⟩ := C23_block_prefix_reduce (intRed false 32 .add) 0 rfl 4 workers ideal p.2 p.2 true false fresh fresh (fresh + 1)
      (by omega) (le_refl _) hbound (by omega) hid hid' (by omega) (by omega) (by omega) (by omega)
    rw [hp]
    -- state before the last phase
    have hmid : ∀ m m1 m2 : Loc → BitVec 32, (∀ i, i < size → m (inb, i) = 0 ∨ m (inb, i) = 1) →
        Phase.Ends (p.2, countTask p.1 size inb fresh) m m1 → Ends ps m1 m2 →
        (∀ l : Loc, l.1 < fresh → m2 l = m l) ∧
        ∀ t, t < p.2 → m2 (fresh, t) = BitVec.ofNat 32 (cnt (fun i => m2 (inb, i)) 0 (splitRange p.1 size t).1) := by
      intro m m1 m2 hf hm1 hm2
      obtain ⟨a1, a2⟩ := (hcount m hf).1 m1 hm1
      obtain ⟨b1, b2⟩ := (hspec m1).2.2 m2 hm2
      have hsame : ∀ l : Loc, l.1 < fresh → m2 l = m l := by
        intro l hl
        rw [b2 l (by omega) (fun h => by have := h.1; omega), a2 l (fun h => by have := h.1; omega)]
      refine ⟨hsame, fun t ht => ?_⟩
      have hr := Result.isReduction false (by omega) .add (b1 t ht)
      have hfe : (fun i => m2 (inb, i)) = fun i => m (inb, i) := by funext i; exact hsame _ hin
      rw [hfe]
      apply BitVec.eq_of_toNat_eq
      have hdiv : t / p.2 = 0 := Nat.div_eq_of_lt ht
      simp only [IsReduction, scanList, Bool.false_eq_true, if_false, if_true, hdiv, Nat.zero_mul] at hr
      rw [hr, BitVec.toNat_ofNat]
      congr 1
      -- sums of counts
      have hsum' : ∀ n, n ≤ t → ((slice (fun j => m1 (fresh, j)) 0 n).map BitVec.toNat).sum = cnt (fun i => m (inb, i)) 0 (n * p.1) := by
        intro n
        induction n with
        | zero => intro _; simp [cnt_self]
        | succ n ih =>
          intro hn
          rw [slice_succ _ (Nat.zero_le _), List.map_append, List.sum_append, ih (by omega)]
          simp only [List.map_cons, List.map_nil, List.sum_cons, List.sum_nil, Nat.add_zero]
          rw [a1 n (by omega), (hfacts n (by omega)).2.1]
          simp only
          have h7 := (hfacts (n + 1) (by omega)).2.2.2
          rw [Nat.add_mul, Nat.one_mul] at h7 ⊢
          rw [show min (n * p.1 + p.1) size = n * p.1 + p.1 by omega, BitVec.toNat_ofNat]
          have h8 := cnt_le (f := fun i => m (inb, i)) (n * p.1) (n * p.1 + p.1)
          rw [Nat.mod_eq_of_lt (by omega)]
          exact cnt_add (Nat.zero_le _) (by omega)
      rw [hsum' t (le_refl _), (hfacts t ht).2.1]
    refine ⟨_, _, rfl, fun m hf => ?_⟩
    refine ⟨?_, ends_exists _ _, ?_⟩
    · rw [List.cons_append]
      refine ⟨(hcount m hf).2 _ (fun i hi => Or.inl ⟨rfl, rfl, hi⟩)
        (fun t ht => Or.inr (Or.inr (Or.inr ⟨_, List.mem_cons_self, rfl, ht⟩))), fun m1 hm1 => ?_⟩
      rw [safe_append]
      refine ⟨safe_mono ?_ (hspec m1).1, fun m2 hm2 => ⟨?_, fun _ _ => trivial⟩⟩
      · rintro b l (⟨_, h5, h6⟩ | h | ⟨a, ha, h⟩)
        · exact Or.inr (Or.inr (Or.inr ⟨_, List.mem_cons_self, h5, h6⟩))
        · exact Or.inr (Or.inr (Or.inr ⟨_, List.mem_cons_self, h⟩))
        · exact Or.inr (Or.inr (Or.inr ⟨a, List.mem_cons_of_mem _ ha, h⟩))
      · obtain ⟨hsame, hoff⟩ := hmid m m1 m2 hf hm1 hm2
        have hf2 : ∀ i, i < size → m2 (inb, i) = 0 ∨ m2 (inb, i) = 1 := fun i hi => by rw [hsame _ hin]; exact hf i hi
        have hfe : (fun i => m2 (inb, i)) = fun i => m (inb, i) := by funext i; exact hsame _ hin
        refine (hcomp m2 hf2 hoff).2 _ (fun i hi => Or.inl ⟨rfl, rfl, hi⟩) ?_ ?_ ?_
        · intro sb t hsb ht
          cases hsb
          exact Or.inr (Or.inr (Or.inr ⟨_, List.mem_cons_self, rfl, ht⟩))
        · intro k hk
          rw [hfe] at hk
          exact Or.inr (Or.inl ⟨rfl, rfl, by rw [hlen]; exact hk⟩)
        · exact Or.inr (Or.inr (Or.inl ⟨rfl, rfl⟩))
    · intro m' hm'
      rw [List.cons_append] at hm'
      obtain ⟨m1, hm1, hm'⟩ := hm'
      rw [ends_append] at hm'
      obtain ⟨m2, hm2, m3, hm3, rfl⟩ := hm'
      obtain ⟨hsame, hoff⟩ := hmid m m1 m2 hf hm1 hm2
      have hf2 : ∀ i, i < size → m2 (inb, i) = 0 ∨ m2 (inb, i) = 1 := fun i hi => by rw [hsame _ hin]; exact hf i hi
      have hfe : (fun i => m2 (inb, i)) = fun i => m (inb, i) := by funext i; exact hsame _ hin
      obtain ⟨c1, c2, c3⟩ := (hcomp m2 hf2 hoff).1 _ hm3
      have hfin := fin m2 _ ⟨c1, c2⟩
      have hset : ∀ i, m2 (inb, i) = m (inb, i) := fun i => hsame _ hin
      simp only [hset] at hfin
      rw [hfe] at c3
      refine ⟨hfin.1, hfin.2.1, fun l hl hl2 hl3 => ?_⟩
      rw [c3 l (fun h => hl2 ⟨h.1, by rw [hlen]; exact h.2.2⟩) hl3, hsame l hl]
  · rw [if_neg hb]
    have hfacts := fun t ht => poolSplit_facts (workers := workers) hsp (t := t) ht
    have hcomp := fun m hf hs' => compressPhase (workers := workers) hsp (scratch := none) h1 h2 h3
      (fun sb hsb => by cases hsb) m hf hs'
    generalize poolSplit workers ideal size = p at *
    have hoff : ∀ (m : Loc → BitVec 32) t, t < p.2 → Option.elim (none : Option Nat) (0 : BitVec 32) (fun sb => m (sb, t)) =
        BitVec.ofNat 32 (cnt (fun i => m (inb, i)) 0 (splitRange p.1 size t).1) := by
      intro m t ht
      have : t = 0 := by omega
      subst this
      rw [(hfacts 0 ht).2.1]
      simp [cnt_self]
    refine ⟨_, _, rfl, fun m hf => ?_⟩
    refine ⟨⟨?_, fun _ _ => trivial⟩, ends_exists _ _, ?_⟩
    · refine (hcomp m hf (hoff m)).2 _ (fun i hi => Or.inl ⟨rfl, rfl, hi⟩) (fun sb t h => by cases h) ?_ ?_
      · intro k hk
        exact Or.inr (Or.inl ⟨rfl, rfl, by rw [hlen]; exact hk⟩)
      · exact Or.inr (Or.inr (Or.inl ⟨rfl, rfl⟩))
    · rintro m' ⟨m1, hm1, rfl⟩
      obtain ⟨c1, c2, c3⟩ := (hcomp m hf (hoff m)).1 _ hm1
      have hfin := fin m _ ⟨c1, c2⟩
      exact ⟨hfin.1, hfin.2.1, fun l hl hl2 hl3 => c3 l (fun h => hl2 ⟨h.1, by rw [hlen]; exact h.2.2⟩) hl3⟩

/-- **C25.**  Empty masks: nothing is done (the return value is 0, llvm_ts.cpp:706-707). -/
theorem C25_empty (workers ideal inb outb cntb fresh : Nat) : compress workers ideal 0 inb outb cntb fresh = .ok [] [] := rfl

/-- **C25 (negation).**  With the maximum number of entries, the number of blocks wraps around to zero.
Nothing is done; the number of entries that is returned is uninitialized memory. -/
theorem C25_huge (inb outb cntb fresh : Nat) (m m' : Loc → BitVec 32) :
    ∃ ps, compress 8 16384 (2 ^ 32 - 1) inb outb cntb fresh = .ok ps [] ∧ (Ends ps m m' → m' = m) := by
  have hp : poolSplit 8 16384 (2 ^ 32 - 1) = (16384, 0) := by decide +kernel
  refine ⟨[(0, compressTask 16384 (2 ^ 32 - 1) inb none outb cntb)], ?_, ?_⟩
  · unfold compress
    rw [if_neg (by decide), hp]
    rfl
  · rintro ⟨m1, h1, h2⟩
    have h3 := (phase_spec (R := fun _ => ∅) (W := fun _ => ∅) (Q := fun _ _ => True)
      (fun i j hi => absurd hi (Nat.not_lt_zero _)) (fun i hi => absurd hi (Nat.not_lt_zero _)) h1).2
    have h4 : m1 = m := funext fun l => h3 l (fun i hi => absurd hi (Nat.not_lt_zero _))
    rw [← h4]
    exact h2

/-- The hypotheses can be met: 70000 entries, 5 blocks, every third entry is set -/
example : ∃ ps as, compress 8 16384 70000 0 1 2 3 = .ok ps as ∧
    ∀ m m' : Loc → BitVec 32, (∀ i, m (0, i) = if i % 3 = 0 then 1 else 0) → Ends ps m m' →
      (List.range ((List.range 70000).filter (fun i => m (0, i) ≠ 0)).length).map (fun k => (m' (1, k)).toNat) =
        (List.range 70000).filter (fun i => m (0, i) ≠ 0) := by
  obtain ⟨ps, as, h1, h2⟩ := C25_compress 8 16384 70000 0 1 2 3 (by omega) (by omega) (by omega) (by omega) (by omega) (by omega) (by omega)
    (by omega) (by omega) (by omega)
  refine ⟨ps, as, h1, fun m m' hm he => ?_⟩
  exact ((h2 m (fun i _ => by rw [hm]; split; exact Or.inr rfl; exact Or.inl rfl)).2.2 m' he).2.1
example : poolSplit 8 16384 70000 = (16384, 5) := by decide +kernel

end Verif.Llvm
