import Verif.Gemm.Kernel
/-!
# One task of the matrix product
-/
namespace Verif.Gemm
open Verif.Par
open Verif.Llvm (add32 mul32 ceilDiv32 cdiv add32_eq mul32_eq)

variable {V : Type} {e : Elem V} {c : Cfg} {m : Loc → V} {R W : Set Loc}

/-- Where the partial sum of entry `(i, j)` is kept -/
def Target.loc (t : Target) (N : Nat) (x : Nat × Nat) : Loc := (t.buf, t.base + (x.1 * N + x.2))

theorem Target.loc_inj {t : Target} {N : Nat} {x y : Nat × Nat} (hx : x.2 < N) (hy : y.2 < N) (h : t.loc N x = t.loc N y) : x = y := by
  unfold Target.loc at h
  have h1 : x.1 * N + x.2 = y.1 * N + y.2 := by injection h; omega
  obtain ⟨h2, h3⟩ := pos_inj hx hy h1
  exact Prod.ext h2 h3

/-- Where the result of a pass is written -/
def dest (t : Target) (fin : Nat) (narrow : Bool) : Target := if narrow then ⟨.c, fin⟩ else t

/-- The new value of entry `(i, j)` -/
def newVal (e : Elem V) (m : Loc → V) (t : Target) (N kcLen : Nat) (first narrow : Bool) (f g : Nat → V) (x : Nat × Nat) : V :=
  let r := runK e kcLen f g (if first then e.zero else m (t.loc N x))
  if narrow then e.store r else r

theorem sweepTile_wp {junk : Nat → Nat → V} {pA : Nat → V} {t : Target} {fin N iAbs jc kcLen mValid nSlabs nTail s nv : Nat}
    {first narrow : Bool} (hm : mValid ≤ c.MR) (hnv : nv = if nTail > 0 ∧ s = nSlabs - 1 then nTail else c.NR)
    (hn : nv ≤ c.NR) (hN : ∀ r, r < mValid → r * N + nv ≤ 2 ^ 32)
    (hj : jc + s * c.NR + nv ≤ N)
    (hRp : ∀ k n, k < kcLen → n < c.NR → (Buf.packed, s * c.KC * c.NR + (k * c.NR + n)) ∈ R)
    (hRt : first = false → ∀ r b, r < mValid → b < nv → t.loc N (iAbs + r, jc + s * c.NR + b) ∈ R)
    (hW : ∀ r b, r < mValid → b < nv → (dest t fin narrow).loc N (iAbs + r, jc + s * c.NR + b) ∈ W) :
    wp R W (sweepTile e c junk pA t fin N iAbs jc kcLen mValid nSlabs nTail first narrow s) m (fun _ m' =>
      Filled (fun x : Nat × Nat => (iAbs ≤ x.1 ∧ x.1 < iAbs + mValid) ∧ jc + s * c.NR ≤ x.2 ∧ x.2 < jc + s * c.NR + nv)
        ((dest t fin narrow).loc N)
        (fun x => newVal e m t N kcLen first narrow (fun k => pA (k * c.MR + (x.1 - iAbs)))
          (fun k => m (.packed, s * c.KC * c.NR + (k * c.NR + (x.2 - (jc + s * c.NR))))) x) m m') := by
  -- addresses
  have addr : ∀ (d : Target) r b, r < mValid → b < nv →
      (d.buf, d.base + (iAbs * N + jc) + s * c.NR + add32 (mul32 r N) b) = d.loc N (iAbs + r, jc + s * c.NR + b) := by
    intro d r b hr hb
    have h1 := hN r hr
    rw [mul32_eq (by omega), add32_eq (by omega)]
    unfold Target.loc
    have : d.base + (iAbs * N + jc) + s * c.NR + (r * N + b) = d.base + ((iAbs + r) * N + (jc + s * c.NR + b)) := by
      rw [Nat.add_mul]; omega
    rw [this]
  -- from a tile to a range of entries
  have conv : ∀ (d : Target) (v : Nat → Nat → V) m', Filled (fun x : Nat × Nat => x.1 < mValid ∧ x.2 < nv)
      (fun x => (d.buf, d.base + (iAbs * N + jc) + s * c.NR + add32 (mul32 x.1 N) x.2)) (fun x => v x.1 x.2) m m' →
      Filled (fun x : Nat × Nat => (iAbs ≤ x.1 ∧ x.1 < iAbs + mValid) ∧ jc + s * c.NR ≤ x.2 ∧ x.2 < jc + s * c.NR + nv)
        (d.loc N) (fun x => v (x.1 - iAbs) (x.2 - (jc + s * c.NR))) m m' := by
    intro d v m' hf
    refine ⟨?_, fun l hl => hf.2 l ?_⟩
    · rintro ⟨i, j⟩ ⟨⟨h1, h2⟩, h3, h4⟩
      simp only at h1 h2 h3 h4 ⊢
      have := hf.1 (i - iAbs, j - (jc + s * c.NR)) ⟨by simp only; omega, by simp only; omega⟩
      simp only at this
      rw [addr d _ _ (by omega) (by omega)] at this
      rw [show iAbs + (i - iAbs) = i by omega, show jc + s * c.NR + (j - (jc + s * c.NR)) = j by omega] at this
      exact this
    · rintro ⟨r, b⟩ ⟨h1, h2⟩
      simp only at h1 h2 ⊢
      rw [addr d r b h1 h2]
      exact hl _ ⟨⟨by simp only; omega, by simp only; omega⟩, by simp only; omega, by simp only; omega⟩
  have inj : ∀ (d : Target), ∀ r b r' b', r < mValid → b < nv → r' < mValid → b' < nv →
      d.base + (iAbs * N + jc) + s * c.NR + add32 (mul32 r N) b = d.base + (iAbs * N + jc) + s * c.NR + add32 (mul32 r' N) b' →
      r = r' ∧ b = b' := by
    intro d r b r' b' h1 h2 h3 h4 h
    have h5 : d.loc N (iAbs + r, jc + s * c.NR + b) = d.loc N (iAbs + r', jc + s * c.NR + b') := by
      rw [← addr d r b h1 h2, ← addr d r' b' h3 h4, h]
    have h6 := Target.loc_inj (by simp only; omega) (by simp only; omega) h5
    have h7 := congrArg Prod.fst h6
    have h8 := congrArg Prod.snd h6
    simp only at h7 h8
    omega
  unfold sweepTile
  dsimp only
  rw [← hnv]
  split
  · rename_i hc
    obtain ⟨⟨h1, h2⟩, h3⟩ := hc
    have h3' : narrow = false := by cases narrow; rfl; exact absurd h3 (by decide)
    subst h3'
    subst h1
    subst h2
    unfold microMem
    rw [wp_bind]
    have hstart : wp R W (if first then .pure fun _ _ => e.zero
        else readTile c.MR c.NR t.buf (fun m n => t.base + (iAbs * N + jc) + s * c.NR + add32 (mul32 m N) n) (fun _ _ => e.zero)) m
        (fun q m' => m' = m ∧ ∀ r b, r < c.MR → b < c.NR → q r b = if first then e.zero else m (t.loc N (iAbs + r, jc + s * c.NR + b))) := by
      split
      · exact ⟨rfl, fun _ _ _ _ => rfl⟩
      · rename_i hf
        refine wp_mono (readTile_wp ?_) ?_
        · intro r b hr hb
          rw [addr t r b hr hb]
          exact hRt (by simpa using hf) r b hr hb
        · rintro q m' ⟨rfl, h⟩
          refine ⟨rfl, fun r b hr hb => ?_⟩
          rw [h r b hr hb, addr t r b hr hb]
    refine wp_mono hstart ?_
    rintro q m' ⟨rfl, hq⟩
    rw [wp_bind]
    refine wp_mono (microLoop_wp hRp) ?_
    rintro r m'' ⟨rfl, hr⟩
    refine wp_mono (writeTile_wp ?_ ?_) ?_
    · intro r b hr hb
      rw [addr t r b hr hb]
      exact hW r b hr hb
    · intro r b r' b' h4 h5 h6 h7
      exact inj t r b r' b' h4 h5 h6 h7
    · intro _ m' hf
      refine (conv t r m' hf).congr (fun x => Iff.rfl) ?_
      rintro ⟨i, j⟩ ⟨⟨g1, g2⟩, g3, g4⟩
      simp only at g1 g2 g3 g4 ⊢
      rw [hr _ _ (by omega), hq _ _ (by omega) (by omega)]
      unfold newVal
      simp only [Bool.false_eq_true, if_false]
      rw [show iAbs + (i - iAbs) = i by omega, show jc + s * c.NR + (j - (jc + s * c.NR)) = j by omega]
  · rw [wp_bind]
    have hstart : wp R W (if first then .pure junk
        else readTile mValid nv t.buf (fun r b => t.base + (iAbs * N + jc) + s * c.NR + add32 (mul32 r N) b) junk) m
        (fun q m' => m' = m ∧ ∀ r b, r < mValid → b < nv →
          (if first then fun _ _ => e.zero else q) r b = if first then e.zero else m (t.loc N (iAbs + r, jc + s * c.NR + b))) := by
      split
      · exact ⟨rfl, fun _ _ _ _ => rfl⟩
      · rename_i hf
        refine wp_mono (readTile_wp ?_) ?_
        · intro r b hr hb
          rw [addr t r b hr hb]
          exact hRt (by simpa using hf) r b hr hb
        · rintro q m' ⟨rfl, h⟩
          refine ⟨rfl, fun r b hr hb => ?_⟩
          rw [h r b hr hb, addr t r b hr hb]
    refine wp_mono hstart ?_
    rintro q m' ⟨rfl, hq⟩
    rw [wp_bind]
    unfold microLoc
    refine wp_mono (microLoop_wp hRp) ?_
    rintro r m'' ⟨rfl, hr⟩
    have hval : ∀ i j, iAbs ≤ i → i < iAbs + mValid → jc + s * c.NR ≤ j → j < jc + s * c.NR + nv →
        r (i - iAbs) (j - (jc + s * c.NR)) = runK e kcLen (fun k => pA (k * c.MR + (i - iAbs)))
          (fun k => m'' (.packed, s * c.KC * c.NR + (k * c.NR + (j - (jc + s * c.NR)))))
          (if first then e.zero else m'' (t.loc N (i, j))) := by
      intro i j g1 g2 g3 g4
      rw [hr _ _ (by omega), hq _ _ (by omega) (by omega)]
      rw [show iAbs + (i - iAbs) = i by omega, show jc + s * c.NR + (j - (jc + s * c.NR)) = j by omega]
    cases narrow with
    | true =>
      rw [if_pos rfl]
      refine wp_mono (writeTile_wp ?_ ?_) ?_
      · intro r b hr hb
        have := hW r b hr hb
        rw [← addr _ r b hr hb] at this
        exact this
      · intro r b r' b' h4 h5 h6 h7
        exact inj ⟨.c, fin⟩ r b r' b' h4 h5 h6 h7
      · intro _ m' hf
        refine (conv ⟨.c, fin⟩ (fun a b => e.store (r a b)) m' hf).congr (fun x => Iff.rfl) ?_
        rintro ⟨i, j⟩ ⟨⟨g1, g2⟩, g3, g4⟩
        simp only at g1 g2 g3 g4 ⊢
        rw [hval i j g1 g2 g3 g4]
        unfold newVal
        simp only [if_true]
    | false =>
      rw [if_neg (by decide)]
      refine wp_mono (writeTile_wp ?_ ?_) ?_
      · intro r b hr hb
        have := hW r b hr hb
        rw [← addr _ r b hr hb] at this
        exact this
      · intro r b r' b' h4 h5 h6 h7
        exact inj t r b r' b' h4 h5 h6 h7
      · intro _ m' hf
        refine (conv t r m' hf).congr (fun x => Iff.rfl) ?_
        rintro ⟨i, j⟩ ⟨⟨g1, g2⟩, g3, g4⟩
        simp only at g1 g2 g3 g4 ⊢
        rw [hval i j g1 g2 g3 g4]
        unfold newVal
        simp only [Bool.false_eq_true, if_false]

end Verif.Gemm
