import Verif.Gemm.Segment
/-!
# The loops of the matrix product
-/
namespace Verif.Gemm
open Verif.Par
open Verif.Llvm (add32 mul32 ceilDiv32 cdiv add32_eq mul32_eq ceilDiv32_eq cdiv_mul_ge cdiv_mul_lt cdiv_pos lt_cdiv cdiv_le cdiv_le_self)

variable {V : Type} {e : Elem V} {c : Cfg} {m : Loc → V}

/-- Sizes that do not cause 32-bit arithmetic to wrap around -/
structure SizesOK (c : Cfg) (M N K : Nat) : Prop where
  m : 0 < M
  n : 0 < N
  k : 0 < K
  mn : M * N < 2 ^ 32
  mr : M + c.MR ≤ 2 ^ 32
  nr : N + c.NR ≤ 2 ^ 32
  kc : K + c.KC ≤ 2 ^ 32

section
variable {M N K : Nat}

theorem panelWidth_eq (hc : c.OK) (hs : SizesOK c M N K) : panelWidth c N = min (cdiv N c.NR) (cdiv c.NC0 c.NR) * c.NR := by
  unfold panelWidth
  rw [ceilDiv32_eq hc.nr hs.nr]
  rfl

theorem panelWidth_pos (hc : c.OK) (hs : SizesOK c M N K) : 0 < panelWidth c N := by
  rw [panelWidth_eq hc hs]
  have h1 := cdiv_pos hs.n hc.nr
  have h2 := cdiv_pos hc.nc hc.nr
  exact Nat.mul_pos (by omega) hc.nr

theorem mkPanel_ok (hc : c.OK) (hs : SizesOK c M N K) {jc : Nat} (hj : jc < N) :
    PanelOK c M N (min (panelWidth c N) (N - jc)) (mkPanel c M N jc) := by
  have hw := panelWidth_pos hc hs
  have hn : 0 < min (panelWidth c N) (N - jc) := by omega
  have hrs : ceilDiv32 M c.MR = cdiv M c.MR := ceilDiv32_eq hc.mr hs.mr
  have hrp := cdiv_pos hs.m hc.mr
  have hsl := cdiv_pos hn hc.nr
  have hco := cdiv_pos hc.cores hrp
  have hcore : (mkPanel c M N jc).chunks = min (cdiv (min (panelWidth c N) (N - jc)) c.NR) (cdiv c.cores (cdiv M c.MR)) := by
    unfold mkPanel; simp only [hrs]; rfl
  have hch : 0 < (mkPanel c M N jc).chunks := by rw [hcore]; omega
  have hcs : (mkPanel c M N jc).chunkSlabs = cdiv (cdiv (min (panelWidth c N) (N - jc)) c.NR) (mkPanel c M N jc).chunks := rfl
  refine ⟨hn, ?_, rfl, rfl, hch, ?_, ?_, ?_⟩
  · show jc + _ ≤ N; omega
  · rw [hcs]; exact cdiv_pos hsl hch
  · rw [hcs, Nat.mul_comm]
    exact cdiv_mul_ge hch
  · refine lt_of_le_of_lt ?_ hs.mn
    refine Nat.mul_le_mul (cdiv_le_self hc.mr) ?_
    have h1 : cdiv (min (panelWidth c N) (N - jc)) c.NR ≤ min (panelWidth c N) (N - jc) := cdiv_le_self hc.nr
    rw [hcore]
    omega

theorem mkPanel_jc {jc : Nat} : (mkPanel c M N jc).jc = jc := rfl

theorem mkPanel_slabs (hc : c.OK) (hs : SizesOK c M N K) (jc : Nat) : (mkPanel c M N jc).slabs * c.KC * c.NR ≤ c.KC * panelWidth c N := by
  have h1 : (mkPanel c M N jc).slabs = cdiv (min (panelWidth c N) (N - jc)) c.NR := rfl
  have h2 : cdiv (min (panelWidth c N) (N - jc)) c.NR ≤ min (cdiv N c.NR) (cdiv c.NC0 c.NR) :=
    cdiv_le hc.nr (le_trans (Nat.min_le_left _ _) (le_of_eq (panelWidth_eq hc hs)))
  rw [h1, Nat.mul_comm _ c.KC, Nat.mul_assoc]
  refine Nat.mul_le_mul_left _ ?_
  rw [show panelWidth c N = _ from panelWidth_eq hc hs] at h2 ⊢
  exact Nat.mul_le_mul_right _ h2

end

/-! ### Partial sums -/

/-- The terms that have been processed before term `pc` of product `rb` -/
def before (K rb pc : Nat) : List (Nat × Nat) :=
  (List.range rb).flatMap (fun q => (List.range K).map (fun k => (q, k))) ++ (List.range pc).map (fun k => (rb, k))

theorem before_full {K rb : Nat} : before K rb K = before K (rb + 1) 0 := by
  unfold before
  rw [List.range_succ, List.flatMap_append]
  simp

theorem before_all (p : Problem) : before p.K (points p.red) 0 = p.terms := by
  unfold before Problem.terms
  simp

theorem before_nil {K rb pc : Nat} (hK : 0 < K) : before K rb pc = [] ↔ rb = 0 ∧ pc = 0 := by
  unfold before
  constructor
  · intro h
    obtain ⟨h1, h2⟩ := List.append_eq_nil_iff.1 h
    have g2 : pc = 0 := by
      have := congrArg List.length h2
      simpa using this
    refine ⟨?_, g2⟩
    cases rb with
    | zero => rfl
    | succ r =>
      exfalso
      have := List.flatMap_eq_nil_iff.1 h1 0 (by simp)
      have := congrArg List.length this
      simp at this
      omega
  · rintro ⟨rfl, rfl⟩
    rfl

/-- The partial sum of some terms -/
def part (p : Problem) (e : Elem V) (m : Loc → V) (g i j : Nat) (T : List (Nat × Nat)) : V :=
  T.foldl (fun acc t => e.fma acc (e.load (m (.a, p.addrA g t.1 i t.2))) (e.load (m (.b, p.addrB g t.1 t.2 j)))) e.zero

theorem part_before {p : Problem} {g i j rb pc n : Nat} :
    part p e m g i j (before p.K rb (pc + n)) =
      runK e n (fun k => e.load (m (.a, p.addrA g rb i (pc + k)))) (fun k => e.load (m (.b, p.addrB g rb (pc + k) j)))
        (part p e m g i j (before p.K rb pc)) := by
  unfold part before runK
  rw [List.range_add, List.map_append, ← List.append_assoc, List.foldl_append, List.map_map, List.foldl_map]
  rfl

/-! ### One panel -/

theorem decode_eq : ∀ (l : List Dim) (z : Nat), decode l z = (offset Dim.aStride l z, offset Dim.bStride l z)
  | [], _ => rfl
  | d :: l, z => by
    simp only [decode, offset]
    rw [decode_eq l]

section
variable {At Bt : Bool} {M N K : Nat} {grid red : List Dim} {scratch : Buf} {junkA : Nat → V} {junk : Nat → Nat → V} {packed scr : Nat}

/-- The partial sums of the entries of a panel have been computed.  `full`: they are the final results. -/
def Stage (p : Problem) (e : Elem V) (m : Loc → V) (g : Nat) (t : Target) (jc n : Nat) (T : List (Nat × Nat)) (full : Bool) (m' : Loc → V) : Prop :=
  (T ≠ [] → ∀ i j, i < p.M → jc ≤ j → j < jc + n →
    m' ((dest t (g * (p.M * p.N)) (e.wide && full)).loc p.N (i, j)) =
      if e.wide && full then e.store (part p e m g i j T) else part p e m g i j T) ∧
  ∀ l, l.1 ≠ .packed → l.1 ≠ .scratch → (∀ i j, i < p.M → jc ≤ j → j < jc + n → l ≠ (.c, p.addrC g i j)) → m' l = m l

/-- The target of partial sums -/
def tgt (e : Elem V) (scratch : Buf) (fin : Nat) : Target := if e.wide then ⟨scratch, 0⟩ else ⟨.c, fin⟩

theorem segment_stage (hc : c.OK) (hs : SizesOK c M N K) {g rb jc pc : Nat}
    (hb : e.wide = true → scratch = .scratch ∧ M * N ≤ scr ∨ scratch = .null ∧ K ≤ c.KC ∧ points red = 1)
    (hg : g < points grid) (hr : rb < points red) (hj : jc < N) (hpc : pc < K) (hk0 : pc % c.KC = 0) {m1 : Loc → V}
    (h1 : Stage ⟨At, Bt, M, N, K, grid, red⟩ e m g (tgt e scratch (g * (M * N))) jc (min (panelWidth c N) (N - jc)) (before K rb pc) false m1) :
    Runs (Allowed ⟨At, Bt, M, N, K, grid, red⟩ (c.KC * panelWidth c N) scr)
      (segment e c junkA junk At Bt ((decode grid g).1 + (decode red rb).1) ((decode grid g).2 + (decode red rb).2) (tgt e scratch (g * (M * N)))
        (g * (M * N)) M N K (mkPanel c M N jc) pc (min c.KC (K - pc)) (rb = 0 ∧ pc = 0) (e.wide ∧ rb + 1 = points red ∧ pc + min c.KC (K - pc) = K)) m1
      (Stage ⟨At, Bt, M, N, K, grid, red⟩ e m g (tgt e scratch (g * (M * N))) jc (min (panelWidth c N) (N - jc)) (before K rb (pc + min c.KC (K - pc)))
        (decide (rb + 1 = points red ∧ pc + min c.KC (K - pc) = K))) := by
  have hp := mkPanel_ok hc hs hj
  have hNle : jc + min (panelWidth c N) (N - jc) ≤ N := by omega
  have hdim : ∀ i j, i < M → j < N → i * N + j < M * N := by
    intro i j hi hj
    have : (i + 1) * N ≤ M * N := Nat.mul_le_mul_right _ hi
    rw [Nat.succ_mul] at this
    omega
  have hCin : ∀ i j, i < M → j < N → g * (M * N) + (i * N + j) < points grid * (M * N) := by
    intro i j hi hj
    have h2 := hdim i j hi hj
    have : (g + 1) * (M * N) ≤ points grid * (M * N) := Nat.mul_le_mul_right _ hg
    rw [Nat.succ_mul] at this
    omega
  have ht : (tgt e scratch (g * (M * N))).OK (g * (M * N)) := by
    unfold tgt
    split
    · rename_i hw
      rcases hb hw with ⟨rfl, _⟩ | ⟨rfl, _⟩
      · exact .inr (.inl rfl)
      · exact .inr (.inr rfl)
    · exact .inl rfl
  -- the null pointer is not used
  have hnull : e.wide = true → scratch = .null → (rb = 0 ∧ pc = 0) ∧ (rb + 1 = points red ∧ pc + min c.KC (K - pc) = K) := by
    intro hw hn
    rcases hb hw with ⟨rfl, _⟩ | ⟨_, h2, h3⟩
    · cases hn
    · have hrb : rb = 0 := by omega
      have hpc0 : pc = 0 := by rw [Nat.mod_eq_of_lt (by omega)] at hk0; exact hk0
      subst hpc0
      exact ⟨⟨hrb, rfl⟩, by omega, by omega⟩
  have eA : ∀ i k, (decode grid g).1 + (decode red rb).1 + posA At M K i k = (Problem.mk At Bt M N K grid red).addrA g rb i k := by
    intro i k; rw [decode_eq, decode_eq]; rfl
  have eB : ∀ k j, (decode grid g).2 + (decode red rb).2 + posB Bt N K k j = (Problem.mk At Bt M N K grid red).addrB g rb k j := by
    intro i k; rw [decode_eq, decode_eq]; rfl
  -- the buffer that is written
  have hdc : ∀ full : Bool, (full = true ↔ (rb + 1 = points red ∧ pc + min c.KC (K - pc) = K)) → ∀ i j, i < M → j < N →
      (dest (tgt e scratch (g * (M * N))) (g * (M * N)) (e.wide && full)).loc N (i, j) = (.c, g * (M * N) + (i * N + j)) ∨
      ((dest (tgt e scratch (g * (M * N))) (g * (M * N)) (e.wide && full)).loc N (i, j) = (.scratch, i * N + j) ∧ M * N ≤ scr) := by
    intro full hfull i j hi hj
    unfold dest
    split
    · exact .inl rfl
    · rename_i hx
      unfold tgt
      split
      · rename_i hw
        right
        rcases hb hw with ⟨rfl, h2⟩ | ⟨h2, _, _⟩
        · refine ⟨?_, h2⟩
          show (Buf.scratch, 0 + (i * N + j)) = _
          rw [Nat.zero_add]
        · exfalso
          apply hx
          rw [hw, hfull.2 (hnull hw h2).2]
          rfl
      · exact .inl rfl
  have hw1 : (decide (e.wide = true ∧ rb + 1 = points red ∧ pc + min c.KC (K - pc) = K)) = (e.wide && decide (rb + 1 = points red ∧ pc + min c.KC (K - pc) = K)) := by
    rw [Bool.decide_and]; simp
  rw [hw1]
  have hdc' := hdc _ (decide_eq_true_iff (p := rb + 1 = points red ∧ pc + min c.KC (K - pc) = K))
  generalize hfull : decide (rb + 1 = points red ∧ pc + min c.KC (K - pc) = K) = full at hdc'
  refine (segment_runs (n := min (panelWidth c N) (N - jc)) hc hs.mr hp (Nat.min_le_left _ _) ht (le_of_lt hs.mn) ?_ ?_ ?_ ?_ ?_).mono ?_
  · intro i k hi hk'
    rw [eA]
    exact ⟨rfl, g, rb, i, pc + k, hg, hr, hi, by show pc + k < K; omega, rfl⟩
  · intro k j hk' hj'
    rw [eB]
    exact ⟨rfl, g, rb, pc + k, j, hg, hr, by show pc + k < K; omega, hj', rfl⟩
  · intro w y hy
    exact lt_of_lt_of_le hy (mkPanel_slabs hc hs jc)
  · intro hf i j hi hj'
    have hf' : ¬ (rb = 0 ∧ pc = 0) := of_decide_eq_false hf
    unfold tgt
    split
    · rename_i hw
      rcases hb hw with ⟨rfl, h2⟩ | ⟨h2, _, _⟩
      · have := hdim i j hi hj'
        show 0 + (i * N + j) < scr
        omega
      · exact absurd (hnull hw h2).1 hf'
    · exact hCin i j hi hj'
  · intro i j hi hj'
    rcases hdc' i j hi hj' with h | ⟨h, h2⟩
    · rw [h]; exact hCin i j hi hj'
    · rw [h]
      have := hdim i j hi hj'
      show i * N + j < scr
      omega
  · rintro m2 ⟨g1, g2⟩
    rw [mkPanel_jc] at g1 g2
    -- the operands have not been modified
    have hA : ∀ x, m1 (.a, x) = m (.a, x) := fun x => h1.2 _ (by simp) (by simp) (by rintro i j _ _ _ ⟨⟩)
    have hB : ∀ x, m1 (.b, x) = m (.b, x) := fun x => h1.2 _ (by simp) (by simp) (by rintro i j _ _ _ ⟨⟩)
    refine ⟨?_, ?_⟩
    · intro _ i j hi hj1 hj2
      simp only at hi hj1 hj2 ⊢
      rw [g1 i j hi hj1 hj2]
      unfold newVal
      have hst : (if decide (rb = 0 ∧ pc = 0) = true then e.zero else m1 ((tgt e scratch (g * (M * N))).loc N (i, j))) =
          part ⟨At, Bt, M, N, K, grid, red⟩ e m g i j (before K rb pc) := by
        by_cases hz : rb = 0 ∧ pc = 0
        · rw [if_pos (decide_eq_true hz), (before_nil hs.k).2 hz]; rfl
        · rw [if_neg (by simpa using hz)]
          have := h1.1 (fun hh => hz ((before_nil hs.k).1 hh)) i j hi hj1 hj2
          rw [Bool.and_false] at this
          exact this
      have hpart := part_before (e := e) (m := m) (p := ⟨At, Bt, M, N, K, grid, red⟩) (g := g) (i := i) (j := j) (rb := rb) (pc := pc) (n := min c.KC (K - pc))
      simp only at hpart
      rw [hpart, hst]
      simp only [eA, eB, hA, hB]
    · intro l hl1 hl2 hl3
      rw [g2 l hl1, h1.2 l hl1 hl2 hl3]
      intro i j hi hj1 hj2 he
      rcases hdc' i j hi (by omega) with h | ⟨h, h2⟩
      · refine hl3 i j hi hj1 hj2 ?_
        rw [he, h]
        unfold Problem.addrC
        rw [Nat.add_assoc]
      · rw [h] at he
        exact hl2 (by rw [he])

theorem panel_runs (hc : c.OK) (hs : SizesOK c M N K) {g jc : Nat}
    (hb : e.wide = true → scratch = .scratch ∧ M * N ≤ scr ∨ scratch = .null ∧ K ≤ c.KC ∧ points red = 1)
    (hg : g < points grid) (hr : 0 < points red) (hj : jc < N) :
    Runs (Allowed ⟨At, Bt, M, N, K, grid, red⟩ (c.KC * panelWidth c N) scr)
      ((List.range (points red)).flatMap fun rb =>
        ((List.range (cdiv K c.KC)).map (fun s => s * c.KC)).flatMap fun pc =>
          segment e c junkA junk At Bt ((decode grid g).1 + (decode red rb).1) ((decode grid g).2 + (decode red rb).2) (tgt e scratch (g * (M * N)))
            (g * (M * N)) M N K (mkPanel c M N jc) pc (min c.KC (K - pc)) (rb = 0 ∧ pc = 0)
              (e.wide ∧ rb + 1 = points red ∧ pc + min c.KC (K - pc) = K)) m
      (fun m' => (∀ i j, i < M → jc ≤ j → j < jc + min (panelWidth c N) (N - jc) →
          m' (.c, (Problem.mk At Bt M N K grid red).addrC g i j) = (Problem.mk At Bt M N K grid red).entry e (arr m .a) (arr m .b) g i j) ∧
        ∀ l, l.1 ≠ .packed → l.1 ≠ .scratch →
          (∀ i j, i < M → jc ≤ j → j < jc + min (panelWidth c N) (N - jc) → l ≠ (.c, (Problem.mk At Bt M N K grid red).addrC g i j)) → m' l = m l) := by
  refine (Runs.range (fun rb => Stage ⟨At, Bt, M, N, K, grid, red⟩ e m g (tgt e scratch (g * (M * N))) jc (min (panelWidth c N) (N - jc))
    (before K rb 0) (decide (rb = points red))) ⟨fun h => absurd rfl h, fun _ _ _ _ => rfl⟩ ?_).mono ?_
  · intro rb m1 hrb h1
    rw [List.flatMap_map, ← before_full]
    have hfin : (decide (rb + 1 = points red)) = decide (rb + 1 = points red ∧ min (cdiv K c.KC * c.KC) K = K) := by
      have := cdiv_mul_ge (a := K) hc.kc
      congr 1
      rw [Nat.min_eq_right this]; simp
    rw [hfin, show before K rb K = before K rb (min (cdiv K c.KC * c.KC) K) by rw [Nat.min_eq_right (cdiv_mul_ge hc.kc)]]
    refine Runs.range (fun s => Stage ⟨At, Bt, M, N, K, grid, red⟩ e m g (tgt e scratch (g * (M * N))) jc (min (panelWidth c N) (N - jc))
      (before K rb (min (s * c.KC) K)) (decide (rb + 1 = points red ∧ min (s * c.KC) K = K))) ?_ ?_
    · have hk := hs.k
      rw [decide_eq_false (by omega)] at h1
      rw [Nat.zero_mul, Nat.zero_min, decide_eq_false (by omega)]
      exact h1
    · intro s m2 hs2 h2
      have hlt := (lt_cdiv hc.kc).1 hs2
      rw [Nat.min_eq_left (le_of_lt hlt), decide_eq_false (by omega)] at h2
      have := segment_stage (junkA := junkA) (junk := junk) hc hs hb hg hrb hj hlt (Nat.mul_mod_left _ _) h2
      rw [show s * c.KC + min c.KC (K - s * c.KC) = min ((s + 1) * c.KC) K by rw [Nat.succ_mul]; omega] at this ⊢
      exact this
  · rintro m' ⟨h1, h2⟩
    refine ⟨?_, h2⟩
    intro i j hi hj1 hj2
    have hne : before K (points red) 0 ≠ [] := fun h => by
      have := (before_nil hs.k).1 h
      omega
    have := h1 hne i j hi hj1 hj2
    have e1 := before_all ⟨At, Bt, M, N, K, grid, red⟩
    simp only at e1
    rw [e1, decide_eq_true rfl, Bool.and_true] at this
    have e2 : ∀ x : Target, x = ⟨.c, g * (M * N)⟩ → x.loc N (i, j) = (Buf.c, (Problem.mk At Bt M N K grid red).addrC g i j) := by
      rintro _ rfl
      unfold Target.loc Problem.addrC
      simp only [Nat.add_assoc]
    unfold Problem.entry
    unfold part at this
    unfold dest tgt at this
    cases hw : e.wide with
    | true =>
      rw [hw, if_pos rfl, if_pos rfl] at this
      rw [← e2 _ rfl]
      exact this
    | false =>
      rw [hw, if_neg (by decide), if_neg (by decide), if_neg (by decide)] at this
      rw [← e2 _ rfl]
      unfold Elem.store
      rw [hw, if_neg (by decide)]
      exact this

seal mkPanel panelWidth segment decode in
theorem gridPoint_runs (hc : c.OK) (hs : SizesOK c M N K) {g : Nat}
    (hb : e.wide = true → scratch = .scratch ∧ M * N ≤ scr ∨ scratch = .null ∧ K ≤ c.KC ∧ points red = 1)
    (hg : g < points grid) (hr : 0 < points red) :
    Runs (Allowed ⟨At, Bt, M, N, K, grid, red⟩ (c.KC * panelWidth c N) scr)
      (gridPoint e c junkA junk At Bt M N K grid red (points red) scratch
        ((List.range (cdiv N (panelWidth c N))).map (fun t => t * panelWidth c N)) ((List.range (cdiv K c.KC)).map (fun s => s * c.KC)) g) m
      (fun m' => (∀ i j, i < M → j < N →
          m' (.c, (Problem.mk At Bt M N K grid red).addrC g i j) = (Problem.mk At Bt M N K grid red).entry e (arr m .a) (arr m .b) g i j) ∧
        ∀ l, l.1 ≠ .packed → l.1 ≠ .scratch →
          (∀ i j, i < M → j < N → l ≠ (.c, (Problem.mk At Bt M N K grid red).addrC g i j)) → m' l = m l) := by
  have hw := panelWidth_pos hc hs
  have hcov : N ≤ cdiv N (panelWidth c N) * panelWidth c N := cdiv_mul_ge hw
  unfold gridPoint
  dsimp only
  rw [List.flatMap_map]
  refine (Runs.range (fun t m' => (∀ i j, i < M → j < N → j < t * panelWidth c N →
          m' (.c, (Problem.mk At Bt M N K grid red).addrC g i j) = (Problem.mk At Bt M N K grid red).entry e (arr m .a) (arr m .b) g i j) ∧
        ∀ l, l.1 ≠ .packed → l.1 ≠ .scratch →
          (∀ i j, i < M → j < N → l ≠ (.c, (Problem.mk At Bt M N K grid red).addrC g i j)) → m' l = m l) ⟨?_, fun _ _ _ _ => rfl⟩ ?_).mono ?_
  · intro i j _ _ h
    rw [Nat.zero_mul] at h
    omega
  · rintro t m1 ht ⟨h1, h2⟩
    have hlt := (lt_cdiv hw).1 ht
    refine (panel_runs hc hs hb hg hr hlt).mono ?_
    rintro m' ⟨g1, g2⟩
    clear hcov ht
    generalize panelWidth c N = w at hw h1 hlt g1 g2 ⊢
    have hA : arr m1 .a = arr m .a := funext fun x => h2 _ (by simp) (by simp) (by rintro i j _ _ ⟨⟩)
    have hB : arr m1 .b = arr m .b := funext fun x => h2 _ (by simp) (by simp) (by rintro i j _ _ ⟨⟩)
    rw [hA, hB] at g1
    refine ⟨?_, ?_⟩
    · intro i j hi hj hjt
      rw [Nat.succ_mul] at hjt
      by_cases h : t * w ≤ j
      · exact g1 i j hi h (by omega)
      · rw [← h1 i j hi hj (by omega)]
        refine g2 _ (by simp) (by simp) ?_
        intro i' j' hi' hj1 hj2 he
        have e1 : (Problem.mk At Bt M N K grid red).addrC g i j = (Problem.mk At Bt M N K grid red).addrC g i' j' := congrArg Prod.snd he
        unfold Problem.addrC at e1
        simp only at e1
        have := (pos_inj hj (show j' < N by omega) (show i * N + j = i' * N + j' by omega)).2
        omega
    · intro l a1 a2 a3
      rw [g2 l a1 a2 (fun i j hi _ hj => a3 i j hi (by omega)), h2 l a1 a2 a3]
  · rintro m' ⟨h1, h2⟩
    exact ⟨fun i j hi hj => h1 i j hi hj (by omega), h2⟩

theorem countPoints_eq : ∀ (l : List Dim) (n : Nat), (∀ d ∈ l, 0 < d.extent) → n * points l < 2 ^ 32 → countPoints l n = some (n * points l)
  | [], n, _, _ => by simp [countPoints, points]
  | d :: l, n, h, hp => by
    have hd := h d (by simp)
    have hpos : ∀ (l : List Dim), (∀ d ∈ l, 0 < d.extent) → 0 < points l := by
      intro l
      induction l with
      | nil => intro _; simp [points]
      | cons d l ih =>
        intro h
        simp only [points]
        exact Nat.mul_pos (h d (by simp)) (ih (fun d' hd' => h d' (by simp [hd'])))
    have h1 := hpos l (fun d' hd' => h d' (by simp [hd']))
    simp only [points] at hp
    rw [← Nat.mul_assoc] at hp
    have h2 : n * d.extent < 2 ^ 32 := lt_of_le_of_lt (Nat.le_mul_of_pos_right _ h1) hp
    rw [countPoints, if_neg (by omega), mul32_eq h2, countPoints_eq l _ (fun d' hd' => h d' (by simp [hd'])) hp]
    simp only [points]
    rw [Nat.mul_assoc]

theorem points_pos {l : List Dim} (h : ∀ d ∈ l, 0 < d.extent) : 0 < points l := by
  induction l with
  | nil => simp [points]
  | cons d l ih =>
    simp only [points]
    exact Nat.mul_pos (h d (by simp)) (ih (fun d' hd' => h d' (by simp [hd'])))

/-- Without points in the grid there is no work. -/
theorem countPoints_none : ∀ (l : List Dim) (n : Nat), (∃ d ∈ l, d.extent = 0) → countPoints l n = none
  | [], n, h => by obtain ⟨d, h, _⟩ := h; cases h
  | d :: l, n, h => by
    rw [countPoints]
    split
    · rfl
    · rename_i hd
      refine countPoints_none l _ ?_
      obtain ⟨d', h1, h2⟩ := h
      rcases List.mem_cons.1 h1 with rfl | h1
      · exact absurd h2 hd
      · exact ⟨d', h1, h2⟩

theorem points_zero {l : List Dim} (h : ∃ d ∈ l, d.extent = 0) : points l = 0 := by
  induction l with
  | nil => obtain ⟨d, h, _⟩ := h; cases h
  | cons d l ih =>
    simp only [points]
    obtain ⟨d', h1, h2⟩ := h
    rcases List.mem_cons.1 h1 with rfl | h1
    · rw [h2, Nat.zero_mul]
    · rw [ih ⟨d', h1, h2⟩, Nat.mul_zero]

seal mkPanel panelWidth segment decode gridPoint in
theorem achieves_llvm (hc : c.OK) (hs : SizesOK c M N K) (hT : ¬ (At = true ∧ Bt = true)) (hw : N + panelWidth c N ≤ 2 ^ 32)
    (hred : ∀ d ∈ red, 0 < d.extent) (hg : points grid < 2 ^ 32) (hr : points red < 2 ^ 32) {fuel : Nat} (hf : M + N + K < fuel) :
    Achieves ⟨At, Bt, M, N, K, grid, red⟩ e (llvmGemm e c junkA junk fuel At Bt M N K grid red) m := by
  have hT' : (At && Bt) = false := by simpa using hT
  have hrp := points_pos hred
  have hpw := panelWidth_pos hc hs
  unfold llvmGemm
  rw [hT', if_neg (by decide)]
  by_cases hz : ∃ d ∈ grid, d.extent = 0
  · rw [countPoints_none _ _ hz]
    have h0 : points grid = 0 := points_zero hz
    refine ⟨[], 0, 0, rfl, trivial, ?_⟩
    intro m' he
    rw [show m' = m from he]
    refine ⟨?_, rfl, rfl, fun _ _ => rfl⟩
    intro g i j hg'
    simp only [h0] at hg'
    omega
  · have hgr : ∀ d ∈ grid, 0 < d.extent := fun d hd => by
      rcases Nat.eq_zero_or_pos d.extent with h | h
      · exact absurd ⟨d, hd, h⟩ hz
      · exact h
    rw [countPoints_eq grid 1 hgr (by omega), countPoints_eq red 1 hred (by omega)]
    simp only [Nat.one_mul]
    have h1 := hs.m
    have h2 := hs.n
    have h3 := hs.k
    rw [if_neg (by omega), if_neg (by omega)]
    have e1 : steps N (panelWidth c N) fuel 0 = some ((List.range (cdiv N (panelWidth c N))).map (fun t => t * panelWidth c N)) := by
      have a1 := Verif.Llvm.cdiv_le_self (a := N) hpw
      have := steps_eq hpw hw fuel 0 (by omega) (by omega)
      simpa using this
    have e2 : steps K c.KC fuel 0 = some ((List.range (cdiv K c.KC)).map (fun t => t * c.KC)) := by
      have a1 := Verif.Llvm.cdiv_le_self (a := K) hc.kc
      have := steps_eq hc.kc hs.kc fuel 0 (by omega) (by omega)
      simpa using this
    rw [e1, e2]
    refine ⟨_, _, _, rfl, ?_⟩
    generalize hn : (e.wide && (decide (K > c.KC) || decide (points red > 1))) = needs
    have hb : ∀ hw' : e.wide = true, (if needs = true then Buf.scratch else .null) = .scratch ∧ M * N ≤ (if needs = true then M * N else 0) ∨
        (if needs = true then Buf.scratch else .null) = .null ∧ K ≤ c.KC ∧ points red = 1 := by
      intro hw'
      cases needs with
      | true => left; simp
      | false =>
        right
        rw [hw'] at hn
        simp at hn
        exact ⟨by simp, hn.1, by omega⟩
    generalize hsb : (if needs = true then Buf.scratch else .null) = sb at hb
    generalize (if needs = true then M * N else 0) = scr at hb
    have key : Runs (Allowed ⟨At, Bt, M, N, K, grid, red⟩ (c.KC * panelWidth c N) scr)
      ((List.range (points grid)).flatMap (gridPoint e c junkA junk At Bt M N K grid red (points red) sb
        ((List.range (cdiv N (panelWidth c N))).map (fun t => t * panelWidth c N)) ((List.range (cdiv K c.KC)).map (fun s => s * c.KC)))) m
      (fun m' => (∀ g i j, g < points grid → i < M → j < N →
          m' (.c, (Problem.mk At Bt M N K grid red).addrC g i j) = (Problem.mk At Bt M N K grid red).entry e (arr m .a) (arr m .b) g i j) ∧
        ∀ l, l.1 ≠ .packed → l.1 ≠ .scratch → (l.1 = .c → points grid * (M * N) ≤ l.2) → m' l = m l) := by
      have hdim : ∀ g i j, i < M → j < N → g * (M * N) + i * N + j < (g + 1) * (M * N) := by
        intro g i j hi hj
        have : (i + 1) * N ≤ M * N := Nat.mul_le_mul_right _ hi
        rw [Nat.succ_mul] at this ⊢
        omega
      refine Runs.range (fun n m' => (∀ g i j, g < n → i < M → j < N →
          m' (.c, (Problem.mk At Bt M N K grid red).addrC g i j) = (Problem.mk At Bt M N K grid red).entry e (arr m .a) (arr m .b) g i j) ∧
        ∀ l, l.1 ≠ .packed → l.1 ≠ .scratch → (l.1 = .c → points grid * (M * N) ≤ l.2) → m' l = m l) ⟨fun g i j h => absurd h (Nat.not_lt_zero _), fun _ _ _ _ => rfl⟩ ?_
      rintro g m1 hg1 ⟨g1, g2⟩
      refine (gridPoint_runs hc hs hb hg1 hrp).mono ?_
      rintro m' ⟨g3, g4⟩
      have hA : arr m1 .a = arr m .a := funext fun x => g2 _ (by simp) (by simp) (by rintro ⟨⟩)
      have hB : arr m1 .b = arr m .b := funext fun x => g2 _ (by simp) (by simp) (by rintro ⟨⟩)
      rw [hA, hB] at g3
      refine ⟨?_, ?_⟩
      · intro g' i j hg' hi hj
        by_cases hgg : g' = g
        · subst hgg; exact g3 i j hi hj
        · rw [← g1 g' i j (by omega) hi hj]
          refine g4 _ (by simp) (by simp) ?_
          intro i' j' hi' hj' he
          have e1 : (Problem.mk At Bt M N K grid red).addrC g' i j = (Problem.mk At Bt M N K grid red).addrC g i' j' := congrArg Prod.snd he
          unfold Problem.addrC at e1
          simp only at e1
          have a1 := hdim g' i j hi hj
          have a2 : (g' + 1) * (M * N) ≤ g * (M * N) := Nat.mul_le_mul_right _ (by omega)
          omega
      · intro l a1 a2 a3
        rw [g4 l a1 a2 ?_, g2 l a1 a2 a3]
        rintro i j hi hj rfl
        have a4 := a3 rfl
        have a5 := hdim g i j hi hj
        have a6 : (g + 1) * (M * N) ≤ points grid * (M * N) := Nat.mul_le_mul_right _ hg1
        unfold Problem.addrC at a4
        simp only at a4
        omega
    refine ⟨key.1, fun m' he => ?_⟩
    obtain ⟨k1, k2⟩ := key.2 m' he
    exact ⟨fun g i j hg' hi hj => k1 g i j hg' hi hj, funext fun x => k2 _ (by simp) (by simp) (by rintro ⟨⟩),
      funext fun x => k2 _ (by simp) (by simp) (by rintro ⟨⟩), fun x hx => k2 _ (by simp) (by simp) (fun _ => hx)⟩

end

end Verif.Gemm
