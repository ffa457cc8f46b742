import Verif.Gemm.Rules
/-!
# The kernels, one task at a time
-/
namespace Verif.Gemm
open Verif.Par
open Verif.Llvm (add32 mul32 ceilDiv32 cdiv add32_eq mul32_eq)

variable {V : Type} {e : Elem V} {c : Cfg} {m : Loc → V} {R W : Set Loc}

/-- Sum of `kc` terms -/
def runK (e : Elem V) (kc : Nat) (f g : Nat → V) (acc : V) : V := (List.range kc).foldl (fun a k => e.fma a (f k) (g k)) acc

theorem runK_succ {kc : Nat} {f g : Nat → V} {acc : V} :
    runK e (kc + 1) f g acc = e.fma (runK e kc f g acc) (f kc) (g kc) := by
  unfold runK
  rw [List.range_succ, List.foldl_append]
  rfl

theorem runK_congr {kc : Nat} {f g f' g' : Nat → V} {acc acc' : V} (hf : ∀ k < kc, f k = f' k) (hg : ∀ k < kc, g k = g' k)
    (ha : acc = acc') : runK e kc f g acc = runK e kc f' g' acc' := by
  subst ha
  induction kc with
  | zero => rfl
  | succ n ih =>
    rw [runK_succ, runK_succ, ih (fun k hk => hf k (by omega)) (fun k hk => hg k (by omega)), hf n (by omega), hg n (by omega)]

/-- Positions in an array of rows of `w` entries -/
theorem pos_inj {w k r k' r' : Nat} (hr : r < w) (hr' : r' < w) (h : k * w + r = k' * w + r') : k = k' ∧ r = r' := by
  have h1 : (k * w + r) / w = k := by rw [Nat.mul_comm, Nat.mul_add_div (by omega), Nat.div_eq_of_lt hr]; omega
  have h2 : (k' * w + r') / w = k' := by rw [Nat.mul_comm, Nat.mul_add_div (by omega), Nat.div_eq_of_lt hr']; omega
  rw [h] at h1
  have h3 : k = k' := by omega
  subst h3
  exact ⟨rfl, by omega⟩

section
variable {w : Nat} {S : Nat → Nat → Prop} {val : Nat → Nat → V} {p : Nat → V}

/-- The entries in `S` have their final values. -/
def Packed (w : Nat) (val : Nat → Nat → V) (S : Nat → Nat → Prop) (p : Nat → V) : Prop :=
  ∀ k r, S k r → r < w ∧ p (k * w + r) = val k r

theorem Packed.set {T : Nat → Nat → Prop} (h : Packed w val S p) {k r : Nat} {x : V} (hr : r < w) (hx : x = val k r)
    (hT : ∀ k' r', T k' r' → S k' r' ∨ (k' = k ∧ r' = r)) : Packed w val T (setv p (k * w + r) x) := by
  intro k' r' ht
  rcases hT k' r' ht with h' | ⟨rfl, rfl⟩
  · have := h k' r' h'
    refine ⟨this.1, ?_⟩
    unfold setv
    split
    · rename_i e1
      obtain ⟨rfl, rfl⟩ := pos_inj this.1 hr e1
      exact hx
    · exact this.2
  · exact ⟨hr, by simp [setv, hx]⟩

theorem Packed.mono {T : Nat → Nat → Prop} (h : Packed w val S p) (hT : ∀ k r, T k r → S k r) : Packed w val T p :=
  fun k r ht => h k r (hT k r ht)

end

/-- Position of entry `(i, k)` of the first operand relative to its start -/
def posA (At : Bool) (M K i k : Nat) : Nat := if At then k * M + i else i * K + k
/-- Position of entry `(k, j)` of the second operand relative to its start -/
def posB (Bt : Bool) (N K k j : Nat) : Nat := if Bt then j * K + k else k * N + j

theorem packA_wp {At : Bool} {A M K iStart kc0 kcLen mValid : Nat} {p : Nat → V} (hm : mValid ≤ c.MR)
    (hR : ∀ r k, r < mValid → k < kcLen → (Buf.a, A + posA At M K (iStart + r) (kc0 + k)) ∈ R) :
    wp R W (packA e c At A M K iStart kc0 kcLen mValid p) m (fun p' m' => m' = m ∧ ∀ k r, k < kcLen → r < c.MR →
      p' (k * c.MR + r) = if r < mValid then e.load (m (.a, A + posA At M K (iStart + r) (kc0 + k))) else e.zero) := by
  generalize hval : (fun k r => if r < mValid then e.load (m (.a, A + posA At M K (iStart + r) (kc0 + k))) else e.zero) = val
  have hv : ∀ k r, val k r = if r < mValid then e.load (m (.a, A + posA At M K (iStart + r) (kc0 + k))) else e.zero := by
    rw [← hval]; intro k r; rfl
  suffices h : wp R W (packA e c At A M K iStart kc0 kcLen mValid p) m
      (fun p' m' => m' = m ∧ Packed c.MR val (fun k r => k < kcLen ∧ r < c.MR) p') by
    refine wp_mono h ?_
    rintro p' m' ⟨h1, h2⟩
    refine ⟨h1, fun k r hk hr => ?_⟩
    rw [(h2 k r ⟨hk, hr⟩).2, hv]
  unfold packA
  cases At with
  | false =>
    rw [if_pos (by decide)]
    refine wp_mono (wp_forAcc (fun r p => Packed c.MR val (fun k r' => k < kcLen ∧ r' < r) p) (Nat.zero_le _)
      (fun k r h => by omega) ?_) ?_
    · intro r p _ hr hp
      split
      · rename_i hr1
        refine wp_mono (wp_forAcc (fun k p => Packed c.MR val (fun k' r' => (k' < kcLen ∧ r' < r) ∨ (k' < k ∧ r' = r)) p)
          (Nat.zero_le _) (hp.mono (fun k r h => by omega)) ?_) ?_
        · intro k p _ hk hp
          rw [wp_bind]
          have e1 : A + (iStart + r) * K + kc0 + k = A + posA false M K (iStart + r) (kc0 + k) := by
            simp only [posA, Bool.false_eq_true, if_false]; omega
          rw [e1]
          refine wp_get (hR r k hr1 hk) ?_
          refine ⟨rfl, hp.set hr ?_ (fun k' r' h => by omega)⟩
          rw [hv, if_pos hr1]
        · rintro p m' ⟨h1, h2⟩
          exact ⟨h1, h2.mono (fun k r h => by omega)⟩
      · rename_i hr1
        refine wp_mono (wp_forAcc (fun k p => Packed c.MR val (fun k' r' => (k' < kcLen ∧ r' < r) ∨ (k' < k ∧ r' = r)) p)
          (Nat.zero_le _) (hp.mono (fun k r h => by omega)) ?_) ?_
        · intro k p _ hk hp
          refine ⟨rfl, hp.set hr ?_ (fun k' r' h => by omega)⟩
          rw [hv, if_neg hr1]
        · rintro p m' ⟨h1, h2⟩
          exact ⟨h1, h2.mono (fun k r h => by omega)⟩
    · rintro p m' ⟨h1, h2⟩
      exact ⟨h1, h2.mono (fun k r h => h)⟩
  | true =>
    rw [if_neg (by decide)]
    refine wp_mono (wp_forAcc (fun k p => Packed c.MR val (fun k' r' => k' < k ∧ r' < c.MR) p) (Nat.zero_le _)
      (fun k r h => by omega) ?_) ?_
    · intro k p _ hk hp
      rw [wp_bind]
      refine wp_mono (wp_forAcc (fun r p => Packed c.MR val (fun k' r' => (k' < k ∧ r' < c.MR) ∨ (k' = k ∧ r' < r)) p)
          (Nat.zero_le _) (hp.mono (fun k r h => by omega)) ?_) ?_
      · intro r p _ hr hp
        rw [wp_bind]
        have e1 : A + (kc0 + k) * M + iStart + r = A + posA true M K (iStart + r) (kc0 + k) := by
          simp only [posA, if_true]; omega
        rw [e1]
        refine wp_get (hR r k hr hk) ?_
        refine ⟨rfl, hp.set (by omega) ?_ (fun k' r' h => by omega)⟩
        rw [hv, if_pos hr]
      · rintro p m' ⟨rfl, hp⟩
        refine wp_mono (wp_forAcc (fun r p => Packed c.MR val (fun k' r' => (k' < k ∧ r' < c.MR) ∨ (k' = k ∧ r' < r)) p)
          hm hp ?_) ?_
        · intro r p hr1 hr hp
          refine ⟨rfl, hp.set hr ?_ (fun k' r' h => by omega)⟩
          rw [hv, if_neg (by omega)]
        · rintro p m'' ⟨h1, h2⟩
          exact ⟨h1, h2.mono (fun k r h => by omega)⟩
    · rintro p m' ⟨h1, h2⟩
      exact ⟨h1, h2.mono (fun k r h => h)⟩

/-- Cells of a slab of `packed_B` -/
def slabLoc (c : Cfg) (dst : Nat) (kb : Nat × Nat) : Loc := (.packed, dst + (kb.1 * c.NR + kb.2))

theorem slabLoc_inj {dst : Nat} {x y : Nat × Nat} (hx : x.2 < c.NR) (hy : y.2 < c.NR) (h : slabLoc c dst x = slabLoc c dst y) : x = y := by
  unfold slabLoc at h
  have h1 : x.1 * c.NR + x.2 = y.1 * c.NR + y.2 := by injection h; omega
  obtain ⟨h2, h3⟩ := pos_inj hx hy h1
  exact Prod.ext h2 h3

theorem packB_wp {Bt : Bool} {B dst N K jStart kc0 kcLen nValid : Nat} (hn : nValid ≤ c.NR)
    (hR : ∀ b k, b < nValid → k < kcLen → (Buf.b, B + posB Bt N K (kc0 + k) (jStart + b)) ∈ R)
    (hW : ∀ k b, k < kcLen → b < c.NR → slabLoc c dst (k, b) ∈ W) :
    wp R W (packB e c Bt B dst N K jStart kc0 kcLen nValid) m (fun _ m' =>
      Filled (fun x : Nat × Nat => x.1 < kcLen ∧ x.2 < c.NR) (slabLoc c dst)
        (fun x => if x.2 < nValid then e.load (m (.b, B + posB Bt N K (kc0 + x.1) (jStart + x.2))) else e.zero) m m') := by
  generalize hval : (fun x : Nat × Nat => if x.2 < nValid then e.load (m (.b, B + posB Bt N K (kc0 + x.1) (jStart + x.2))) else e.zero) = val
  have hv : ∀ x, val x = if x.2 < nValid then e.load (m (.b, B + posB Bt N K (kc0 + x.1) (jStart + x.2))) else e.zero := by
    rw [← hval]; intro x; rfl
  have hne : ∀ x i, ((Buf.b, x) : Loc) ≠ slabLoc c dst i := by
    intro x i h; unfold slabLoc at h; injection h with h1; cases h1
  unfold packB
  cases Bt with
  | false =>
    rw [if_pos (by decide)]
    refine wp_mono (wp_fill (S := fun k x => x.1 = k ∧ x.2 < c.NR) (loc := slabLoc c dst) (v := val) (Nat.zero_le _) ?_ ?_) ?_
    · rintro k k' i j _ _ _ _ hk ⟨rfl, h2⟩ ⟨rfl, h4⟩ h
      exact hk (congrArg Prod.fst (slabLoc_inj h2 h4 h))
    · intro k m1 _ hk hm1
      have hm2 : ∀ x, m1 (.b, x) = m (.b, x) := fun x => hm1 _ (fun k' i _ _ _ => hne x i)
      rw [wp_bind]
      refine wp_mono (wp_fill (S := fun b x => x = (k, b)) (loc := slabLoc c dst) (v := val) (Nat.zero_le _) ?_ ?_) ?_
      · rintro b b' i j _ hb _ hb' hbb rfl rfl h
        exact hbb (congrArg Prod.snd (slabLoc_inj (x := (k, b)) (y := (k, b')) (by simp only; omega) (by simp only; omega) h))
      · intro b m3 _ hb hm3
        have hm4 : ∀ x, m3 (.b, x) = m (.b, x) := fun x => by rw [hm3 _ (fun k' i _ _ _ => hne x i), hm2]
        rw [wp_bind]
        have e1 : B + (kc0 + k) * N + jStart + b = B + posB false N K (kc0 + k) (jStart + b) := by
          simp only [posB, Bool.false_eq_true, if_false]; omega
        rw [e1]
        refine wp_get (hR b k hb hk) (wp_put (hW k b hk (by omega)) ?_)
        have e2 : e.load (m3 (.b, B + posB false N K (kc0 + k) (jStart + b))) = val (k, b) := by
          rw [hm4, hv]; simp only; rw [if_pos hb]
        rw [e2]
        exact Filled.one (loc := slabLoc c dst) (v := val) (k, b)
      · intro _ m3 hf
        refine wp_mono (wp_fill (S := fun b x => x = (k, b)) (loc := slabLoc c dst) (v := val) hn ?_ ?_) ?_
        · rintro b b' i j _ hb _ hb' hbb rfl rfl h
          exact hbb (congrArg Prod.snd (slabLoc_inj (x := (k, b)) (y := (k, b')) (by simp only; omega) (by simp only; omega) h))
        · intro b m4 hb1 hb _
          refine wp_put (hW k b hk hb) ?_
          have e2 : e.zero = val (k, b) := by rw [hv]; simp only; rw [if_neg (by omega)]
          rw [e2]
          exact Filled.one (loc := slabLoc c dst) (v := val) (k, b)
        · intro _ m4 hf'
          refine hf.union hf' ?_ ?_
          · rintro ⟨x1, x2⟩
            constructor
            · rintro ⟨rfl, h⟩
              simp only at h
              by_cases hx : x2 < nValid
              · exact .inl ⟨x2, by omega, hx, rfl⟩
              · exact .inr ⟨x2, by omega, h, rfl⟩
            · rintro (⟨b, h1, h2, h3⟩ | ⟨b, h1, h2, h3⟩)
              · cases h3; exact ⟨rfl, by simp only; omega⟩
              · cases h3; exact ⟨rfl, by simp only; omega⟩
          · rintro i j ⟨b, h1, h2, rfl⟩ ⟨b', h1', h2', rfl⟩ h
            have := congrArg Prod.snd (slabLoc_inj (x := (k, b)) (y := (k, b')) (by simp only; omega) (by simp only; omega) h)
            simp only at this; omega
    · intro _ m' hf
      exact hf.congr (fun x => ⟨fun ⟨k, _, h1, h2, h3⟩ => ⟨by omega, h3⟩, fun ⟨h1, h2⟩ => ⟨x.1, by omega, h1, rfl, h2⟩⟩) (fun _ _ => rfl)
  | true =>
    rw [if_neg (by decide)]
    refine wp_mono (wp_fill (S := fun b x => x.2 = b ∧ x.1 < kcLen) (loc := slabLoc c dst) (v := val) (Nat.zero_le _) ?_ ?_) ?_
    · rintro k k' i j _ _ _ _ hk ⟨rfl, h2⟩ ⟨rfl, h4⟩ h
      exact hk (congrArg Prod.snd (slabLoc_inj (by omega) (by omega) h))
    · intro b m1 _ hb hm1
      have hm2 : ∀ x, m1 (.b, x) = m (.b, x) := fun x => hm1 _ (fun k' i _ _ _ => hne x i)
      have fin : ∀ (body : Nat → Prog Loc V Unit), (∀ k m3, k < kcLen → (∀ x, m3 (.b, x) = m (.b, x)) →
          wp R W (body k) m3 (fun _ m4 => m4 = upd m3 (slabLoc c dst (k, b)) (val (k, b)))) →
          wp R W (forLt 0 kcLen body) m1 (fun _ m'' => Filled (fun x => x.2 = b ∧ x.1 < kcLen) (slabLoc c dst) val m1 m'') := by
        intro body hbody
        refine wp_mono (wp_fill (S := fun k x => x = (k, b)) (loc := slabLoc c dst) (v := val) (Nat.zero_le _) ?_ ?_) ?_
        · rintro k k' i j _ hk _ hk' hkk rfl rfl h
          exact hkk (congrArg Prod.fst (slabLoc_inj (x := (k, b)) (y := (k', b)) hb hb h))
        · intro k m3 _ hk hm3
          refine wp_mono (hbody k m3 hk (fun x => by rw [hm3 _ (fun k' i _ _ _ => hne x i), hm2])) ?_
          rintro _ m4 rfl
          exact Filled.one (loc := slabLoc c dst) (v := val) (k, b)
        · intro _ m' hf
          refine hf.congr ?_ (fun _ _ => rfl)
          rintro ⟨x1, x2⟩
          constructor
          · rintro ⟨k, _, h1, h2⟩; cases h2; exact ⟨rfl, h1⟩
          · rintro ⟨rfl, h⟩; exact ⟨x1, by omega, h, rfl⟩
      split
      · rename_i hb1
        refine fin _ ?_
        intro k m3 hk hm3
        rw [wp_bind]
        have e1 : B + (jStart + b) * K + kc0 + k = B + posB true N K (kc0 + k) (jStart + b) := by
          simp only [posB, if_true]; omega
        rw [e1]
        refine wp_get (hR b k hb1 hk) (wp_put (hW k b hk hb) ?_)
        rw [hm3, hv]
        simp only
        rw [if_pos hb1]
        rfl
      · rename_i hb1
        refine fin _ ?_
        intro k m3 hk hm3
        refine wp_put (hW k b hk hb) ?_
        rw [hv]
        simp only
        rw [if_neg hb1]
        rfl
    · intro _ m' hf
      exact hf.congr (fun x => ⟨fun ⟨k, _, h1, h2, h3⟩ => ⟨h3, by omega⟩, fun ⟨h1, h2⟩ => ⟨x.2, by omega, h2, rfl, h1⟩⟩) (fun _ _ => rfl)

theorem microLoop_wp {pA : Nat → V} {pb kcLen : Nat} {r : Nat → Nat → V}
    (hR : ∀ k n, k < kcLen → n < c.NR → (Buf.packed, pb + (k * c.NR + n)) ∈ R) :
    wp R W (microLoop e c pA pb kcLen r) m (fun r' m' => m' = m ∧ ∀ i n, n < c.NR →
      r' i n = runK e kcLen (fun k => pA (k * c.MR + i)) (fun k => m (.packed, pb + (k * c.NR + n))) (r i n)) := by
  unfold microLoop
  refine wp_forAcc (fun (kk : Nat) (r' : Nat → Nat → V) => ∀ i n, n < c.NR →
      r' i n = runK e kk (fun k => pA (k * c.MR + i)) (fun k => m (.packed, pb + (k * c.NR + n))) (r i n)) (Nat.zero_le _)
      (fun i n _ => rfl) ?_
  intro k r' _ hk hr'
  rw [wp_bind]
  refine wp_mono (wp_forAcc (fun n bv => ∀ n' < n, bv n' = m (.packed, pb + (k * c.NR + n'))) (Nat.zero_le _)
    (fun n' h => by omega) ?_) ?_
  · intro n bv _ hn hbv
    rw [wp_bind]
    refine wp_get (hR k n hk hn) ⟨rfl, ?_⟩
    intro n' hn'
    unfold setv
    split
    · rename_i e1; rw [e1]
    · exact hbv n' (by omega)
  · rintro bv m' ⟨rfl, hbv⟩
    refine ⟨rfl, ?_⟩
    intro i n hn
    dsimp only
    rw [runK_succ, hr' i n hn, hbv n hn]

theorem readTile_wp {rows cols : Nat} {buf : Buf} {addr : Nat → Nat → Nat} {q : Nat → Nat → V}
    (hR : ∀ r b, r < rows → b < cols → (buf, addr r b) ∈ R) :
    wp R W (readTile rows cols buf addr q) m (fun q' m' => m' = m ∧ ∀ r b, r < rows → b < cols → q' r b = m (buf, addr r b)) := by
  unfold readTile
  refine wp_mono (wp_forAcc (fun t q' => ∀ r b, r < t → b < cols → q' r b = m (buf, addr r b)) (Nat.zero_le _)
    (fun r b h => by omega) ?_) (fun q' m' h => h)
  intro r q' _ hr hq
  refine wp_mono (wp_forAcc (fun t q' => ∀ r' b, ((r' < r ∧ b < cols) ∨ (r' = r ∧ b < t)) → q' r' b = m (buf, addr r' b)) (Nat.zero_le _)
    (fun r' b h => hq r' b (by omega) (by omega)) ?_) ?_
  · intro b q1 _ hb hq1
    rw [wp_bind]
    refine wp_get (hR r b hr hb) ⟨rfl, ?_⟩
    intro r' b' h
    dsimp only
    split
    · rename_i e1; rw [e1.1, e1.2]
    · exact hq1 r' b' (by omega)
  · rintro q1 m' ⟨h1, h2⟩
    exact ⟨h1, fun r' b h3 h4 => h2 r' b (by omega)⟩

theorem writeTile_wp {rows cols : Nat} {buf : Buf} {addr : Nat → Nat → Nat} {v : Nat → Nat → V}
    (hW : ∀ r b, r < rows → b < cols → (buf, addr r b) ∈ W)
    (hi : ∀ r b r' b', r < rows → b < cols → r' < rows → b' < cols → addr r b = addr r' b' → r = r' ∧ b = b') :
    wp R W (writeTile rows cols buf addr v) m (fun _ m' =>
      Filled (fun x : Nat × Nat => x.1 < rows ∧ x.2 < cols) (fun x => (buf, addr x.1 x.2)) (fun x => v x.1 x.2) m m') := by
  unfold writeTile
  refine wp_mono (wp_fill (S := fun r x => x.1 = r ∧ x.2 < cols) (loc := fun x => (buf, addr x.1 x.2))
    (v := fun x : Nat × Nat => v x.1 x.2) (Nat.zero_le _) ?_ ?_) ?_
  · rintro k k' i j _ hk _ hk' hkk ⟨rfl, h2⟩ ⟨rfl, h4⟩ h
    exact hkk (hi _ _ _ _ hk h2 hk' h4 (congrArg Prod.snd h)).1
  · intro r m1 _ hr _
    refine wp_mono (wp_fill (S := fun b x => x = (r, b)) (loc := fun x => (buf, addr x.1 x.2))
      (v := fun x : Nat × Nat => v x.1 x.2) (Nat.zero_le _) ?_ ?_) ?_
    · rintro b b' i j _ hb _ hb' hbb rfl rfl h
      exact hbb (hi _ _ _ _ hr hb hr hb' (congrArg Prod.snd h)).2
    · intro b m2 _ hb _
      refine wp_put (hW r b hr hb) ?_
      exact Filled.one (loc := fun x : Nat × Nat => (buf, addr x.1 x.2)) (v := fun x : Nat × Nat => v x.1 x.2) (r, b)
    · intro _ m' hf
      refine hf.congr ?_ (fun _ _ => rfl)
      rintro ⟨x1, x2⟩
      constructor
      · rintro ⟨b, _, h1, h2⟩; cases h2; exact ⟨rfl, h1⟩
      · rintro ⟨rfl, h⟩; exact ⟨x2, by omega, h, rfl⟩
  · intro _ m' hf
    exact hf.congr (fun x => ⟨fun ⟨k, _, h1, h2, h3⟩ => ⟨by omega, h3⟩, fun ⟨h1, h2⟩ => ⟨x.1, by omega, h1, rfl, h2⟩⟩) (fun _ _ => rfl)

end Verif.Gemm
