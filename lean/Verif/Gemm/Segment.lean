import Verif.Gemm.Sweep
import Verif.Gemm.Claim
/-!
# The two submissions of a segment
-/
namespace Verif.Gemm
open Verif.Par
open Verif.Llvm (add32 mul32 ceilDiv32 cdiv add32_eq mul32_eq ceilDiv32_eq cdiv_mul_ge cdiv_mul_lt cdiv_pos lt_cdiv cdiv_le)

variable {V : Type} {e : Elem V} {c : Cfg} {m : Loc → V} {R W : Set Loc}

/-- What is used about panels of width `n` -/
structure PanelOK (c : Cfg) (M N n : Nat) (p : Panel) : Prop where
  n_pos : 0 < n
  n_le : p.jc + n ≤ N
  slabs : p.slabs = cdiv n c.NR
  tail : p.tail = n % c.NR
  chunks : 0 < p.chunks
  cs : 0 < p.chunkSlabs
  cover : p.slabs ≤ p.chunks * p.chunkSlabs
  small : cdiv M c.MR * p.chunks < 2 ^ 32

/-- Number of valid columns of a slab -/
def Panel.valid (c : Cfg) (p : Panel) (s : Nat) : Nat := if p.tail > 0 ∧ s = p.slabs - 1 then p.tail else c.NR

section
variable {M N n : Nat} {p : Panel}

theorem PanelOK.valid_le (h : PanelOK c M N n p) (hc : c.OK) (s : Nat) : p.valid c s ≤ c.NR := by
  unfold Panel.valid
  split
  · rw [h.tail]; exact le_of_lt (Nat.mod_lt _ hc.nr)
  · exact le_refl _

theorem PanelOK.valid_end (h : PanelOK c M N n p) (hc : c.OK) {s : Nat} (hs : s < p.slabs) :
    s * c.NR + p.valid c s = min (s * c.NR + c.NR) n := by
  have h1 := cdiv_mul_ge (a := n) hc.nr
  have h2 := cdiv_mul_lt (a := n) hc.nr
  rw [← h.slabs] at h1 h2
  have h3 := Nat.div_add_mod n c.NR
  have h4 := Nat.mod_lt n hc.nr
  rw [← h.tail] at h3 h4
  have h5 := (lt_cdiv hc.nr).1 (h.slabs ▸ hs)
  rw [Nat.mul_comm] at h3
  unfold Panel.valid
  split
  · rename_i hh
    obtain ⟨g1, rfl⟩ := hh
    -- the number of complete slabs
    have e1 : n / c.NR = p.slabs - 1 := by
      have a1 : n / c.NR < p.slabs := by
        apply Nat.lt_of_mul_lt_mul_right (a := c.NR); omega
      have a2 : p.slabs - 1 ≤ n / c.NR := by
        rw [Nat.le_div_iff_mul_le hc.nr]; omega
      omega
    rw [e1] at h3
    omega
  · rename_i hh
    by_cases hs1 : s = p.slabs - 1
    · have g1 : p.tail = 0 := by omega
      rw [g1] at h3
      have e1 : n / c.NR = p.slabs := by
        have a1 : n / c.NR ≤ p.slabs := by
          apply Nat.le_of_mul_le_mul_right (c := c.NR) _ hc.nr; omega
        have a2 : p.slabs ≤ n / c.NR := by
          have : (p.slabs - 1) * c.NR < n / c.NR * c.NR := by
            rw [hs1] at h5; omega
          have := Nat.lt_of_mul_lt_mul_right this
          omega
        omega
      rw [e1] at h3
      have : p.slabs * c.NR = (s + 1) * c.NR := by congr 1; omega
      rw [Nat.succ_mul] at this
      omega
    · have : (s + 1) * c.NR ≤ (p.slabs - 1) * c.NR := Nat.mul_le_mul_right _ (by omega)
      rw [Nat.succ_mul] at this
      have h6 : (p.slabs - 1) * c.NR < n := (lt_cdiv hc.nr).1 (by rw [← h.slabs]; omega)
      omega

theorem PanelOK.slab_of (h : PanelOK c M N n p) (hc : c.OK) {j : Nat} (hj : j < n) : j / c.NR < p.slabs := by
  rw [h.slabs, lt_cdiv hc.nr]
  exact lt_of_le_of_lt (Nat.div_mul_le_self _ _) hj

/-- Membership in the valid columns of a slab -/
theorem PanelOK.valid_iff (h : PanelOK c M N n p) (hc : c.OK) {s j : Nat} (hs : s < p.slabs) :
    (s * c.NR ≤ j ∧ j < s * c.NR + p.valid c s) ↔ j < n ∧ j / c.NR = s := by
  rw [h.valid_end hc hs]
  have h1 := Nat.div_add_mod j c.NR
  have h2 := Nat.mod_lt j hc.nr
  rw [Nat.mul_comm] at h1
  constructor
  · rintro ⟨g1, g2⟩
    refine ⟨by omega, ?_⟩
    rw [Nat.div_eq_iff hc.nr]
    omega
  · rintro ⟨g1, rfl⟩
    omega

end

/-- Where partial sums are kept: in the result, in the temporary buffer, or nowhere. -/
def Target.OK (t : Target) (fin : Nat) : Prop := t = ⟨.c, fin⟩ ∨ t.buf = .scratch ∨ t.buf = .null

section
variable {t : Target} {fin N : Nat} {narrow : Bool}

theorem dest_cases (ht : t.OK fin) : dest t fin narrow = t ∨ (dest t fin narrow = ⟨.c, fin⟩ ∧ t.buf ≠ .c) := by
  unfold dest
  cases narrow with
  | false => exact .inl rfl
  | true =>
    rw [if_pos rfl]
    rcases ht with h | h | h
    · exact .inl h.symm
    · right; exact ⟨rfl, by rw [h]; decide⟩
    · right; exact ⟨rfl, by rw [h]; decide⟩

theorem dest_buf (ht : t.OK fin) : (dest t fin narrow).buf = .c ∨ (dest t fin narrow).buf = .scratch ∨ (dest t fin narrow).buf = .null := by
  unfold dest
  split
  · exact .inl rfl
  · rcases ht with h | h | h
    · rw [h]; exact .inl rfl
    · exact .inr (.inl h)
    · exact .inr (.inr h)

theorem dest_ne (ht : t.OK fin) {x y : Nat × Nat} (hx : x.2 < N) (hy : y.2 < N) (h : (dest t fin narrow).loc N x = t.loc N y) : x = y := by
  rcases dest_cases ht (narrow := narrow) with h1 | ⟨h1, h2⟩
  · rw [h1] at h; exact Target.loc_inj hx hy h
  · rw [h1] at h
    have := congrArg Prod.fst h
    exact absurd this.symm h2

theorem dest_packed (ht : t.OK fin) (x : Nat × Nat) (y : Nat) : (Buf.packed, y) ≠ (dest t fin narrow).loc N x := by
  intro h
  have := congrArg Prod.fst h
  simp only [Target.loc] at this
  rcases dest_buf ht (narrow := narrow) with h1 | h1 | h1 <;> rw [h1] at this <;> cases this

theorem dest_a (ht : t.OK fin) (x : Nat × Nat) (y : Nat) : (Buf.a, y) ≠ (dest t fin narrow).loc N x := by
  intro h
  have := congrArg Prod.fst h
  simp only [Target.loc] at this
  rcases dest_buf ht (narrow := narrow) with h1 | h1 | h1 <;> rw [h1] at this <;> cases this

theorem dest_b (ht : t.OK fin) (x : Nat × Nat) (y : Nat) : (Buf.b, y) ≠ (dest t fin narrow).loc N x := by
  intro h
  have := congrArg Prod.fst h
  simp only [Target.loc] at this
  rcases dest_buf ht (narrow := narrow) with h1 | h1 | h1 <;> rw [h1] at this <;> cases this

end

theorem newVal_congr {m' : Loc → V} {t : Target} {N kcLen : Nat} {first narrow : Bool} {f g f' g' : Nat → V} {x : Nat × Nat}
    (hf : ∀ k < kcLen, f k = f' k) (hg : ∀ k < kcLen, g k = g' k) (hm : first = false → m (t.loc N x) = m' (t.loc N x)) :
    newVal e m t N kcLen first narrow f g x = newVal e m' t N kcLen first narrow f' g' x := by
  unfold newVal
  have : runK e kcLen f g (if first then e.zero else m (t.loc N x)) = runK e kcLen f' g' (if first then e.zero else m' (t.loc N x)) := by
    refine runK_congr hf hg ?_
    cases first with
    | true => rfl
    | false => rw [if_neg (by decide), if_neg (by decide), hm rfl]
  rw [this]

section
variable {M N K n A pc kcLen : Nat} {p : Panel} {t : Target} {fin : Nat} {first narrow At : Bool} {junkA : Nat → V} {junk : Nat → Nat → V}

/-- Values of the packed operand -/
def packedAt (c : Cfg) (m : Loc → V) (s k b : Nat) : V := m (.packed, s * c.KC * c.NR + (k * c.NR + b))

theorem rowSweep_wp (hc : c.OK) (hp : PanelOK c M N n p) (ht : t.OK fin) {r sLo sHi : Nat} (hr : r * c.MR < M) (hlo : sLo ≤ sHi) (hs : sHi ≤ p.slabs)
    (hMN : M * N ≤ 2 ^ 32)
    (hRa : ∀ i k, i < M → k < kcLen → (Buf.a, A + posA At M K i (pc + k)) ∈ R)
    (hRp : ∀ s k b, sLo ≤ s → s < sHi → k < kcLen → b < c.NR → (Buf.packed, s * c.KC * c.NR + (k * c.NR + b)) ∈ R)
    (hRt : first = false → ∀ i j, i < M → i / c.MR = r → j < n → sLo ≤ j / c.NR → j / c.NR < sHi → t.loc N (i, p.jc + j) ∈ R)
    (hW : ∀ i j, i < M → i / c.MR = r → j < n → sLo ≤ j / c.NR → j / c.NR < sHi → (dest t fin narrow).loc N (i, p.jc + j) ∈ W) :
    wp R W (rowSweep e c junkA junk At A t fin M N K (r * c.MR) p.jc pc kcLen p.slabs p.tail sLo sHi first narrow) m (fun _ m' =>
      Filled (fun x : Nat × Nat => (x.1 < M ∧ x.1 / c.MR = r) ∧ p.jc ≤ x.2 ∧ x.2 < p.jc + n ∧ sLo ≤ (x.2 - p.jc) / c.NR ∧ (x.2 - p.jc) / c.NR < sHi)
        ((dest t fin narrow).loc N)
        (fun x => newVal e m t N kcLen first narrow (fun k => e.load (m (.a, A + posA At M K x.1 (pc + k))))
          (fun k => packedAt c m ((x.2 - p.jc) / c.NR) k ((x.2 - p.jc) % c.NR)) x) m m') := by
  have hnl := hp.n_le
  -- rows
  have hrow : ∀ i, (r * c.MR ≤ i ∧ i < r * c.MR + min c.MR (M - r * c.MR)) ↔ i < M ∧ i / c.MR = r := by
    intro i
    rw [Nat.div_eq_iff hc.mr]
    have := hc.mr
    omega
  unfold rowSweep
  dsimp only
  rw [wp_bind]
  refine wp_mono (packA_wp (Nat.min_le_left _ _) ?_) ?_
  · intro r' k hr' hk
    exact hRa _ k ((hrow _).1 (by omega)).1 hk
  rintro pA m' ⟨rfl, hpA⟩
  refine wp_mono (wp_fill (S := fun s x => (x.1 < M ∧ x.1 / c.MR = r) ∧ p.jc ≤ x.2 ∧ x.2 < p.jc + n ∧ (x.2 - p.jc) / c.NR = s)
    (loc := (dest t fin narrow).loc N)
    (v := fun x => newVal e m' t N kcLen first narrow (fun k => e.load (m' (.a, A + posA At M K x.1 (pc + k))))
          (fun k => packedAt c m' ((x.2 - p.jc) / c.NR) k ((x.2 - p.jc) % c.NR)) x) hlo ?_ ?_) ?_
  · rintro s s' x y _ _ _ _ hss ⟨_, _, h3, h4⟩ ⟨_, _, h7, h8⟩ h
    have := Target.loc_inj (by omega) (by omega) h
    subst this
    omega
  · intro s m1 hs1 hs2 hm1
    have hsl : s < p.slabs := by omega
    have hv := hp.valid_le hc s
    have hve := hp.valid_end hc hsl
    have hcols : ∀ j, (p.jc + s * c.NR ≤ j ∧ j < p.jc + s * c.NR + p.valid c s) ↔ p.jc ≤ j ∧ j < p.jc + n ∧ (j - p.jc) / c.NR = s := by
      intro j
      have := hp.valid_iff hc hsl (j := j - p.jc)
      by_cases hj : p.jc ≤ j
      · constructor
        · rintro ⟨g1, g2⟩
          obtain ⟨g3, g4⟩ := this.1 (by omega)
          exact ⟨hj, by omega, g4⟩
        · rintro ⟨g1, g2, g3⟩
          have := this.2 ⟨by omega, g3⟩
          omega
      · omega
    refine wp_mono (sweepTile_wp (nv := p.valid c s) (Nat.min_le_left _ _) rfl hv ?_ (by omega) (fun k b hk hb => hRp s k b hs1 hs2 hk hb) ?_ ?_) ?_
    · intro r' hr'
      have h1 : r' + 1 ≤ M := by omega
      have h2 := Nat.mul_le_mul_right N h1
      rw [Nat.succ_mul] at h2
      omega
    · intro hf r' b hr' hb
      have h1 := (hrow (r * c.MR + r')).1 (by omega)
      have h2 := (hcols (p.jc + s * c.NR + b)).1 (by omega)
      have := hRt hf (r * c.MR + r') (s * c.NR + b) h1.1 h1.2 (by omega) (by rw [show s * c.NR + b = p.jc + s * c.NR + b - p.jc by omega, h2.2.2]; exact hs1)
        (by rw [show s * c.NR + b = p.jc + s * c.NR + b - p.jc by omega, h2.2.2]; exact hs2)
      rw [← Nat.add_assoc] at this
      exact this
    · intro r' b hr' hb
      have h1 := (hrow (r * c.MR + r')).1 (by omega)
      have h2 := (hcols (p.jc + s * c.NR + b)).1 (by omega)
      have := hW (r * c.MR + r') (s * c.NR + b) h1.1 h1.2 (by omega) (by rw [show s * c.NR + b = p.jc + s * c.NR + b - p.jc by omega, h2.2.2]; exact hs1)
        (by rw [show s * c.NR + b = p.jc + s * c.NR + b - p.jc by omega, h2.2.2]; exact hs2)
      rw [← Nat.add_assoc] at this
      exact this
    · intro _ m2 hf
      refine hf.congr ?_ ?_
      · intro x
        rw [hrow, hcols]
      · intro x hx
        rw [hrow, hcols] at hx
        obtain ⟨⟨g1, g2⟩, g3, g4, g5⟩ := hx
        have g6 := (hrow x.1).2 ⟨g1, g2⟩
        refine newVal_congr ?_ ?_ ?_
        · intro k hk
          have := hpA k (x.1 - r * c.MR) hk (by omega)
          rw [this, if_pos (by omega), show r * c.MR + (x.1 - r * c.MR) = x.1 by omega]
        · intro k hk
          unfold packedAt
          rw [hm1 _ (fun s' y _ _ _ => dest_packed ht y _)]
          have : x.2 - (p.jc + s * c.NR) = (x.2 - p.jc) % c.NR := by
            have h1 := Nat.div_add_mod (x.2 - p.jc) c.NR
            rw [g5, Nat.mul_comm] at h1
            omega
          rw [this, g5]
        · intro _
          refine hm1 _ ?_
          rintro s' y _ hs' ⟨_, h2, h3, h4⟩ h
          have := dest_ne ht (by omega) (by omega) h.symm
          subst this
          omega
  · intro _ m2 hf
    refine hf.congr (fun x => ?_) (fun _ _ => rfl)
    constructor
    · rintro ⟨s, h1, h2, h3, h4, h5, rfl⟩
      exact ⟨h3, h4, h5, h1, h2⟩
    · rintro ⟨h3, h4, h5, h1, h2⟩
      exact ⟨_, h1, h2, h3, h4, h5, rfl⟩

end

section
variable {M N K n A B pc kcLen : Nat} {p : Panel} {t : Target} {fin : Nat} {first narrow At Bt : Bool} {junkA : Nat → V} {junk : Nat → Nat → V}
variable {ok : Bool → Loc → Prop}

/-- First submission: the second operand is packed. -/
theorem packPhase_runs (hc : c.OK) (hp : PanelOK c M N n p) (hk : kcLen ≤ c.KC)
    (hokB : ∀ k j, k < kcLen → j < N → ok false (.b, B + posB Bt N K (pc + k) j))
    (hokP : ∀ y, y < p.slabs * c.KC * c.NR → ok true (.packed, y)) :
    Runs ok [(p.slabs, fun idx => packB e c Bt B (idx * c.KC * c.NR) N K (p.jc + idx * c.NR) pc kcLen
        (if p.tail > 0 ∧ idx = p.slabs - 1 then p.tail else c.NR))] m (fun m' =>
      (∀ l, l.1 ≠ .packed → m' l = m l) ∧
      ∀ j k, j < n → k < kcLen → packedAt c m' (j / c.NR) k (j % c.NR) = e.load (m (.b, B + posB Bt N K (pc + k) (p.jc + j)))) := by
  have hnl := hp.n_le
  have hslab : ∀ idx k b, k < kcLen → b < c.NR → idx * c.KC * c.NR + (k * c.NR + b) < (idx + 1) * c.KC * c.NR := by
    intro idx k b hk' hb
    rw [Nat.succ_mul, Nat.add_mul]
    have : (k + 1) * c.NR ≤ c.KC * c.NR := Nat.mul_le_mul_right _ (by omega)
    rw [Nat.succ_mul] at this
    omega
  refine Runs.phase (R := fun idx => {l | ∃ b k, b < p.valid c idx ∧ k < kcLen ∧ l = (.b, B + posB Bt N K (pc + k) (p.jc + idx * c.NR + b))})
    (W := fun idx => {l | ∃ k b, k < kcLen ∧ b < c.NR ∧ l = slabLoc c (idx * c.KC * c.NR) (k, b)})
    (Q := fun idx m' => ∀ k b, k < kcLen → b < p.valid c idx →
      packedAt c m' idx k b = e.load (m (.b, B + posB Bt N K (pc + k) (p.jc + idx * c.NR + b)))) ?_ ?_ ?_ ?_ ?_
  · rintro i j hi hj hij l ⟨k, b, h1, h2, rfl⟩
    refine ⟨?_, ?_⟩
    · rintro ⟨b', k', h3, h4, h5⟩
      unfold slabLoc at h5
      injection h5 with h6; cases h6
    · rintro ⟨k', b', h3, h4, h5⟩
      unfold slabLoc at h5
      have h6 : i * c.KC * c.NR + (k * c.NR + b) = j * c.KC * c.NR + (k' * c.NR + b') := by injection h5
      have a1 := hslab i k b h1 h2
      have a2 := hslab j k' b' h3 h4
      rcases Nat.lt_or_gt_of_ne hij with h | h
      · have : (i + 1) * c.KC * c.NR ≤ j * c.KC * c.NR := Nat.mul_le_mul_right _ (Nat.mul_le_mul_right _ h)
        omega
      · have : (j + 1) * c.KC * c.NR ≤ i * c.KC * c.NR := Nat.mul_le_mul_right _ (Nat.mul_le_mul_right _ h)
        omega
  · intro idx hidx
    refine wp_mono (packB_wp (hp.valid_le hc idx) (fun b k hb hk' => ⟨b, k, hb, hk', rfl⟩) (fun k b hk' hb => ⟨k, b, hk', hb, rfl⟩)) ?_
    intro _ m' hf k b hk' hb
    have := hf.1 (k, b) ⟨hk', lt_of_lt_of_le hb (hp.valid_le hc idx)⟩
    simp only at this
    unfold Panel.valid at hb
    rw [if_pos hb] at this
    exact this
  · rintro idx hidx l ⟨b, k, hb, hk', rfl⟩
    have := hp.valid_end hc hidx
    exact hokB k _ hk' (by omega)
  · rintro idx hidx l ⟨k, b, hk', hb, rfl⟩
    refine hokP _ (lt_of_lt_of_le (hslab idx k b hk' hb) ?_)
    exact Nat.mul_le_mul_right _ (Nat.mul_le_mul_right _ hidx)
  · intro m' h1 h2
    refine ⟨?_, ?_⟩
    · intro l hl
      refine h2 l ?_
      rintro idx _ ⟨k, b, _, _, rfl⟩
      exact hl rfl
    · intro j k hj hk'
      have hs := hp.slab_of hc hj
      have hm := Nat.mod_lt j hc.nr
      have hd := Nat.div_add_mod j c.NR
      rw [Nat.mul_comm] at hd
      obtain ⟨mi, g1, g2, g3⟩ := h1 (j / c.NR) hs
      have hv := (hp.valid_iff hc hs (j := j)).2 ⟨hj, rfl⟩
      have := g1 k (j % c.NR) hk' (by omega)
      unfold packedAt at this ⊢
      rw [show m' (Buf.packed, j / c.NR * c.KC * c.NR + (k * c.NR + j % c.NR)) = mi _ from g2 _ ⟨k, j % c.NR, hk', hm, rfl⟩, this]
      rw [show p.jc + j / c.NR * c.NR + j % c.NR = p.jc + j by omega]

/-- Second submission: all entries of the panel are updated. -/
theorem sweepPhase_runs (hc : c.OK) (hM : M + c.MR ≤ 2 ^ 32) (hp : PanelOK c M N n p) (hk : kcLen ≤ c.KC) (ht : t.OK fin) (hMN : M * N ≤ 2 ^ 32)
    (hokA : ∀ i k, i < M → k < kcLen → ok false (.a, A + posA At M K i (pc + k)))
    (hokP : ∀ y, y < p.slabs * c.KC * c.NR → ok false (.packed, y))
    (hokT : first = false → ∀ i j, i < M → j < N → ok false (t.loc N (i, j)))
    (hokW : ∀ i j, i < M → j < N → ok true ((dest t fin narrow).loc N (i, j))) :
    Runs ok [(mul32 (ceilDiv32 M c.MR) p.chunks, fun idx =>
      let r := idx / p.chunks
      let cc := idx % p.chunks
      let sLo := cc * p.chunkSlabs
      let sHi := min (sLo + p.chunkSlabs) p.slabs
      if sLo ≥ sHi then .pure ()
      else rowSweep e c junkA junk At A t fin M N K (r * c.MR) p.jc pc kcLen p.slabs p.tail sLo sHi first narrow)] m
      (Filled (fun x : Nat × Nat => x.1 < M ∧ p.jc ≤ x.2 ∧ x.2 < p.jc + n) ((dest t fin narrow).loc N)
        (fun x => newVal e m t N kcLen first narrow (fun k => e.load (m (.a, A + posA At M K x.1 (pc + k))))
          (fun k => packedAt c m ((x.2 - p.jc) / c.NR) k ((x.2 - p.jc) % c.NR)) x) m) := by
  have hnl := hp.n_le
  have hrs : ceilDiv32 M c.MR = cdiv M c.MR := ceilDiv32_eq hc.mr hM
  rw [hrs, mul32_eq hp.small]
  have hslab : ∀ idx k b, k < kcLen → b < c.NR → idx * c.KC * c.NR + (k * c.NR + b) < (idx + 1) * c.KC * c.NR := by
    intro idx k b hk' hb
    rw [Nat.succ_mul, Nat.add_mul]
    have : (k + 1) * c.NR ≤ c.KC * c.NR := Nat.mul_le_mul_right _ (by omega)
    rw [Nat.succ_mul] at this
    omega
  -- the entries of a task
  generalize hreg : (fun (idx : Nat) (x : Nat × Nat) => x.1 < M ∧ p.jc ≤ x.2 ∧ x.2 < p.jc + n ∧ x.1 / c.MR = idx / p.chunks ∧
    (x.2 - p.jc) / c.NR / p.chunkSlabs = idx % p.chunks) = Reg
  have hReg : ∀ idx x, Reg idx x ↔ x.1 < M ∧ p.jc ≤ x.2 ∧ x.2 < p.jc + n ∧ x.1 / c.MR = idx / p.chunks ∧
    (x.2 - p.jc) / c.NR / p.chunkSlabs = idx % p.chunks := by rw [← hreg]; intro idx x; rfl
  have huniq : ∀ idx idx' x, Reg idx x → Reg idx' x → idx = idx' := by
    intro idx idx' x h1 h2
    rw [hReg] at h1 h2
    rw [← Nat.div_add_mod idx p.chunks, ← Nat.div_add_mod idx' p.chunks, ← h1.2.2.2.1, ← h2.2.2.2.1, ← h1.2.2.2.2, ← h2.2.2.2.2]
  have hchunk : ∀ idx s, s < p.slabs → ((idx % p.chunks * p.chunkSlabs ≤ s ∧ s < min (idx % p.chunks * p.chunkSlabs + p.chunkSlabs) p.slabs) ↔
      s / p.chunkSlabs = idx % p.chunks) := by
    intro idx s hs
    rw [Nat.div_eq_iff hp.cs]
    have := hp.cs
    omega
  refine Runs.phase (R := fun idx => {l | (∃ i k, i < M ∧ k < kcLen ∧ l = (.a, A + posA At M K i (pc + k))) ∨
      (∃ s k b, s < p.slabs ∧ k < kcLen ∧ b < c.NR ∧ l = (.packed, s * c.KC * c.NR + (k * c.NR + b))) ∨
      (first = false ∧ ∃ x, Reg idx x ∧ l = t.loc N x)})
    (W := fun idx => {l | ∃ x, Reg idx x ∧ l = (dest t fin narrow).loc N x})
    (Q := fun idx m' => Filled (Reg idx) ((dest t fin narrow).loc N)
        (fun x => newVal e m t N kcLen first narrow (fun k => e.load (m (.a, A + posA At M K x.1 (pc + k))))
          (fun k => packedAt c m ((x.2 - p.jc) / c.NR) k ((x.2 - p.jc) % c.NR)) x) m m') ?_ ?_ ?_ ?_ ?_
  · rintro i j hi hj hij l ⟨x, hx, rfl⟩
    have hx' := (hReg _ _).1 hx
    refine ⟨?_, ?_⟩
    · rintro (⟨i', k, _, _, h⟩ | ⟨s, k, b, _, _, _, h⟩ | ⟨_, y, hy, h⟩)
      · exact dest_a ht _ _ h.symm
      · exact dest_packed ht _ _ h.symm
      · have hy' := (hReg _ _).1 hy
        have := dest_ne ht (by omega) (by omega) h
        subst this
        exact hij (huniq _ _ _ hx hy)
    · rintro ⟨y, hy, h⟩
      have hy' := (hReg _ _).1 hy
      have := Target.loc_inj (by omega) (by omega) h
      subst this
      exact hij (huniq _ _ _ hx hy)
  · intro idx hidx
    dsimp only
    have hr : idx / p.chunks < cdiv M c.MR := by rw [Nat.div_lt_iff_lt_mul hp.chunks]; exact hidx
    have hr' := (lt_cdiv hc.mr).1 hr
    split
    · rename_i hge
      refine Filled.empty ?_
      intro x hx
      rw [hReg] at hx
      have hs := hp.slab_of hc (show x.2 - p.jc < n by omega)
      have := (hchunk idx _ hs).2 hx.2.2.2.2
      omega
    · rename_i hlt
      refine wp_mono (rowSweep_wp (n := n) hc hp ht hr' (by omega) (Nat.min_le_right _ _) hMN ?_ ?_ ?_ ?_) ?_
      · intro i k hi hk'; exact .inl ⟨i, k, hi, hk', rfl⟩
      · intro s k b _ hs hk' hb; exact .inr (.inl ⟨s, k, b, by omega, hk', hb, rfl⟩)
      · intro hf i j hi hir hj h1 h2
        have e1 : p.jc + j - p.jc = j := by omega
        refine .inr (.inr ⟨hf, (i, p.jc + j), (hReg _ _).2 ⟨hi, by simp only; omega, by simp only; omega, hir, ?_⟩, rfl⟩)
        simp only
        rw [e1]
        exact (hchunk idx _ (hp.slab_of hc hj)).1 ⟨h1, h2⟩
      · intro i j hi hir hj h1 h2
        have e1 : p.jc + j - p.jc = j := by omega
        refine ⟨(i, p.jc + j), (hReg _ _).2 ⟨hi, by simp only; omega, by simp only; omega, hir, ?_⟩, rfl⟩
        simp only
        rw [e1]
        exact (hchunk idx _ (hp.slab_of hc hj)).1 ⟨h1, h2⟩
      · intro _ m' hf
        refine hf.congr ?_ (fun _ _ => rfl)
        intro x
        rw [hReg]
        constructor
        · rintro ⟨⟨h1, h2⟩, h3, h4, h5, h6⟩
          exact ⟨h1, h3, h4, h2, (hchunk idx _ (hp.slab_of hc (by omega))).1 ⟨h5, h6⟩⟩
        · rintro ⟨h1, h3, h4, h2, h5⟩
          have := (hchunk idx _ (hp.slab_of hc (show x.2 - p.jc < n by omega))).2 h5
          exact ⟨⟨h1, h2⟩, h3, h4, this.1, this.2⟩
  · rintro idx hidx l (⟨i, k, hi, hk', rfl⟩ | ⟨s, k, b, hs, hk', hb, rfl⟩ | ⟨hf, x, hx, rfl⟩)
    · exact hokA i k hi hk'
    · refine hokP _ (lt_of_lt_of_le (hslab s k b hk' hb) ?_)
      exact Nat.mul_le_mul_right _ (Nat.mul_le_mul_right _ hs)
    · rw [hReg] at hx
      exact hokT hf _ _ hx.1 (by omega)
  · rintro idx hidx l ⟨x, hx, rfl⟩
    rw [hReg] at hx
    exact hokW _ _ hx.1 (by omega)
  · intro m' h1 h2
    refine ⟨?_, ?_⟩
    · rintro x ⟨hx1, hx2, hx3⟩
      -- the task that computes this entry
      have hs := hp.slab_of hc (show x.2 - p.jc < n by omega)
      have hcc : (x.2 - p.jc) / c.NR / p.chunkSlabs < p.chunks := by
        rw [Nat.div_lt_iff_lt_mul hp.cs]
        exact lt_of_lt_of_le hs hp.cover
      have hr : x.1 / c.MR < cdiv M c.MR := by
        rw [lt_cdiv hc.mr]
        exact lt_of_le_of_lt (Nat.div_mul_le_self _ _) hx1
      have hq : Reg (x.1 / c.MR * p.chunks + (x.2 - p.jc) / c.NR / p.chunkSlabs) x := by
        rw [hReg]
        refine ⟨hx1, hx2, hx3, ?_, ?_⟩
        · rw [Nat.mul_comm, Nat.mul_add_div hp.chunks, Nat.div_eq_of_lt hcc]; omega
        · rw [Nat.mul_comm, Nat.mul_add_mod, Nat.mod_eq_of_lt hcc]
      have hlt : x.1 / c.MR * p.chunks + (x.2 - p.jc) / c.NR / p.chunkSlabs < cdiv M c.MR * p.chunks := by
        have : (x.1 / c.MR + 1) * p.chunks ≤ cdiv M c.MR * p.chunks := Nat.mul_le_mul_right _ hr
        rw [Nat.succ_mul] at this
        omega
      obtain ⟨mi, g1, g2, _⟩ := h1 _ hlt
      rw [g2 _ ⟨x, hq, rfl⟩, g1.1 x hq]
    · intro l hl
      refine h2 l ?_
      rintro idx _ ⟨x, hx, rfl⟩
      rw [hReg] at hx
      exact hl x ⟨hx.1, hx.2.1, hx.2.2.1⟩ rfl

/-- **A segment.**  The partial sums of the entries of a panel are continued. -/
theorem segment_runs (hc : c.OK) (hM : M + c.MR ≤ 2 ^ 32) (hp : PanelOK c M N n p) (hk : kcLen ≤ c.KC) (ht : t.OK fin) (hMN : M * N ≤ 2 ^ 32)
    (hokA : ∀ i k, i < M → k < kcLen → ok false (.a, A + posA At M K i (pc + k)))
    (hokB : ∀ k j, k < kcLen → j < N → ok false (.b, B + posB Bt N K (pc + k) j))
    (hokP : ∀ w y, y < p.slabs * c.KC * c.NR → ok w (.packed, y))
    (hokT : first = false → ∀ i j, i < M → j < N → ok false (t.loc N (i, j)))
    (hokW : ∀ i j, i < M → j < N → ok true ((dest t fin narrow).loc N (i, j))) :
    Runs ok (segment e c junkA junk At Bt A B t fin M N K p pc kcLen first narrow) m (fun m' =>
      (∀ i j, i < M → p.jc ≤ j → j < p.jc + n → m' ((dest t fin narrow).loc N (i, j)) =
        newVal e m t N kcLen first narrow (fun k => e.load (m (.a, A + posA At M K i (pc + k))))
          (fun k => e.load (m (.b, B + posB Bt N K (pc + k) j))) (i, j)) ∧
      ∀ l, l.1 ≠ .packed → (∀ i j, i < M → p.jc ≤ j → j < p.jc + n → l ≠ (dest t fin narrow).loc N (i, j)) → m' l = m l) := by
  unfold segment
  refine Runs.cons ((packPhase_runs (n := n) hc hp hk hokB (hokP true)).mono ?_)
  rintro m1 ⟨h1, h2⟩
  refine (sweepPhase_runs hc hM hp hk ht hMN hokA (hokP false) hokT hokW).mono ?_
  intro m' hf
  have hmt : t.buf ≠ .packed := by
    rcases ht with h | h | h <;> rw [h] <;> simp
  refine ⟨fun i j hi hj1 hj2 => ?_, fun l hl hn => ?_⟩
  · rw [hf.1 (i, j) ⟨hi, hj1, hj2⟩]
    refine newVal_congr ?_ ?_ ?_
    · intro k hk'; rw [h1 _ (by simp)]
    · intro k hk'
      rw [h2 (j - p.jc) k (by omega) hk', show p.jc + (j - p.jc) = j by omega]
    · intro _; exact h1 _ hmt
  · rw [hf.2 l (fun x hx => hn x.1 x.2 hx.1 hx.2.1 hx.2.2), h1 l hl]

end

end Verif.Gemm
