import Verif.Gemm.Model
import Mathlib.Data.Nat.ModEq
/-!
# Proof rules for loops, tiles and sequences of submissions
-/
namespace Verif.Gemm
open Verif.Par
open Verif.Llvm (add32 mul32 ceilDiv32 cdiv ceilDiv32_eq)

variable {V : Type}

section
variable {L : Type} [DecidableEq L]

/-- A loop that does not change memory -/
theorem wp_forAcc {R W : Set Loc} {α : Type} {lo hi : Nat} {p : α} {body : Nat → α → Prog Loc V α} {m : Loc → V}
    (I : Nat → α → Prop) (hlo : lo ≤ hi) (h0 : I lo p)
    (hs : ∀ k a, lo ≤ k → k < hi → I k a → wp R W (body k a) m (fun a' m' => m' = m ∧ I (k + 1) a')) :
    wp R W (forAcc lo hi p body) m (fun a m' => m' = m ∧ I hi a) := by
  unfold forAcc
  have := wp_loop (R := R) (W := W) (n := hi - lo) (a := p) (m := m) (body := fun t p => body (lo + t) p)
    (fun t a m' => m' = m ∧ I (lo + t) a) ⟨rfl, h0⟩ (by
      rintro k a m' hk ⟨rfl, hi'⟩
      exact hs (lo + k) a (by omega) (by omega) hi')
  refine wp_mono this ?_
  rintro a m' ⟨h1, h2⟩
  rw [show lo + (hi - lo) = hi by omega] at h2
  exact ⟨h1, h2⟩

/-- A loop that changes memory -/
theorem wp_forLt {R W : Set L} {lo hi : Nat} {body : Nat → Prog L V Unit} {m : L → V}
    (I : Nat → (L → V) → Prop) (hlo : lo ≤ hi) (h0 : I lo m)
    (hs : ∀ k m', lo ≤ k → k < hi → I k m' → wp R W (body k) m' (fun _ => I (k + 1))) :
    wp R W (forLt lo hi body) m (fun _ => I hi) := by
  unfold forLt
  have := wp_loop (R := R) (W := W) (n := hi - lo) (a := ()) (m := m) (body := fun t _ => body (lo + t))
    (fun t _ m' => I (lo + t) m') h0 (by
      rintro k a m' hk hi'
      exact hs (lo + k) m' (by omega) (by omega) hi')
  refine wp_mono this ?_
  intro _ m' h
  rwa [show lo + (hi - lo) = hi by omega] at h

/-- Locations `loc i` for `i` in `S` have the values `v i`, the others are as in `m`. -/
def Filled {ι : Type} (S : ι → Prop) (loc : ι → L) (v : ι → V) (m m' : L → V) : Prop :=
  (∀ i, S i → m' (loc i) = v i) ∧ ∀ l, (∀ i, S i → l ≠ loc i) → m' l = m l

theorem Filled.empty {ι : Type} {S : ι → Prop} (hS : ∀ i, ¬ S i) {loc : ι → L} {v : ι → V} {m : L → V} : Filled S loc v m m :=
  ⟨fun i h => absurd h (hS i), fun _ _ => rfl⟩

/-- Filling two disjoint sets, one after the other -/
theorem Filled.union {ι : Type} {S T U : ι → Prop} {loc : ι → L} {v : ι → V} {m m1 m2 : L → V}
    (h1 : Filled S loc v m m1) (h2 : Filled T loc v m1 m2) (hU : ∀ i, U i ↔ S i ∨ T i)
    (hd : ∀ i j, S i → T j → loc i ≠ loc j) : Filled U loc v m m2 := by
  refine ⟨fun i hi => ?_, fun l hl => ?_⟩
  · rcases (hU i).1 hi with h | h
    · rw [h2.2 _ (fun j hj => hd i j h hj), h1.1 i h]
    · exact h2.1 i h
  · rw [h2.2 l (fun i hi => hl i ((hU i).2 (.inr hi))), h1.2 l (fun i hi => hl i ((hU i).2 (.inl hi)))]

theorem Filled.congr {ι : Type} {S T : ι → Prop} {loc : ι → L} {v w : ι → V} {m m' : L → V}
    (h : Filled S loc v m m') (hS : ∀ i, S i ↔ T i) (hv : ∀ i, S i → v i = w i) : Filled T loc w m m' :=
  ⟨fun i hi => by rw [h.1 i ((hS i).2 hi), hv i ((hS i).2 hi)], fun l hl => h.2 l (fun i hi => hl i ((hS i).1 hi))⟩

/-- One assignment -/
theorem Filled.one {ι : Type} [DecidableEq ι] {loc : ι → L} {v : ι → V} {m : L → V} (j : ι) :
    Filled (· = j) loc v m (upd m (loc j) (v j)) := by
  refine ⟨?_, fun l hl => ?_⟩
  · rintro i rfl; simp [upd]
  · simp only [upd]; rw [if_neg (hl j rfl)]

/-- A loop of assignments along one index.  `loc` is injective on the cells that are filled. -/
theorem wp_fill {ι : Type} {R W : Set L} {lo hi : Nat} {body : Nat → Prog L V Unit} {m : L → V} {S : Nat → ι → Prop}
    {loc : ι → L} {v : ι → V} (hlo : lo ≤ hi)
    (hd : ∀ k k' i j, lo ≤ k → k < hi → lo ≤ k' → k' < hi → k ≠ k' → S k i → S k' j → loc i ≠ loc j)
    (hb : ∀ k m', lo ≤ k → k < hi → (∀ l, (∀ k' i, lo ≤ k' → k' < k → S k' i → l ≠ loc i) → m' l = m l) →
      wp R W (body k) m' (fun _ m'' => Filled (S k) loc v m' m'')) :
    wp R W (forLt lo hi body) m (fun _ m' => Filled (fun i => ∃ k, lo ≤ k ∧ k < hi ∧ S k i) loc v m m') := by
  refine wp_forLt (fun t m' => Filled (fun i => ∃ k, lo ≤ k ∧ k < t ∧ S k i) loc v m m') hlo
    (Filled.empty (fun i ⟨k, h1, h2, _⟩ => by omega)) ?_
  intro t m' h1 h2 hf
  refine wp_mono (hb t m' h1 h2 ?_) ?_
  · intro l hl
    exact hf.2 l (fun i ⟨k, g1, g2, g3⟩ => hl k i g1 g2 g3)
  · intro _ m'' hf'
    refine hf.union hf' (fun i => ?_) ?_
    · constructor
      · rintro ⟨k, g1, g2, g3⟩
        by_cases e : k = t
        · subst e; exact .inr g3
        · exact .inl ⟨k, g1, by omega, g3⟩
      · rintro (⟨k, g1, g2, g3⟩ | g)
        · exact ⟨k, g1, by omega, g3⟩
        · exact ⟨t, h1, by omega, g⟩
    · rintro i j ⟨k, g1, g2, g3⟩ g
      exact hd k t i j g1 (by omega) h1 h2 (by omega) g3 g

end

/-! ### Sequences of submissions -/

section
variable {ok : Bool → Loc → Prop}

/-- All accesses of the submissions satisfy `ok`, and they end in a memory that satisfies `Q`. -/
def Runs (ok : Bool → Loc → Prop) (ps : List (Phase Loc V)) (m : Loc → V) (Q : (Loc → V) → Prop) : Prop :=
  Safe ok ps m ∧ ∀ m', Ends ps m m' → Q m'

theorem Runs.nil {m : Loc → V} {Q : (Loc → V) → Prop} (h : Q m) : Runs ok [] m Q :=
  ⟨trivial, fun m' e => by rw [show m' = m from e]; exact h⟩

theorem Runs.mono {ps : List (Phase Loc V)} {m : Loc → V} {Q Q' : (Loc → V) → Prop} (h : Runs ok ps m Q)
    (hq : ∀ m', Q m' → Q' m') : Runs ok ps m Q' := ⟨h.1, fun m' e => hq m' (h.2 m' e)⟩

theorem Runs.append {ps qs : List (Phase Loc V)} {m : Loc → V} {Q : (Loc → V) → Prop}
    (h : Runs ok ps m (fun m1 => Runs ok qs m1 Q)) : Runs ok (ps ++ qs) m Q := by
  refine ⟨(safe_append ok ps qs m).2 ⟨h.1, fun m1 e => (h.2 m1 e).1⟩, fun m' e => ?_⟩
  obtain ⟨m1, e1, e2⟩ := (ends_append ps qs m m').1 e
  exact (h.2 m1 e1).2 m' e2

theorem Runs.cons {p : Phase Loc V} {ps : List (Phase Loc V)} {m : Loc → V} {Q : (Loc → V) → Prop}
    (h : Runs ok [p] m (fun m1 => Runs ok ps m1 Q)) : Runs ok (p :: ps) m Q := Runs.append (ps := [p]) h

/-- A loop of submissions -/
theorem Runs.range {n : Nat} {f : Nat → List (Phase Loc V)} {m : Loc → V} (I : Nat → (Loc → V) → Prop) (h0 : I 0 m)
    (hs : ∀ t m', t < n → I t m' → Runs ok (f t) m' (I (t + 1))) : Runs ok ((List.range n).flatMap f) m (I n) := by
  induction n with
  | zero => exact Runs.nil h0
  | succ n ih =>
    rw [List.range_succ, List.flatMap_append]
    refine Runs.append ((ih (fun t m' ht => hs t m' (by omega))).mono ?_)
    intro m1 h1
    simpa using hs n m1 (by omega) h1

/-- One submission -/
theorem Runs.phase {n : Nat} {f : Nat → Prog Loc V Unit} {R W : Nat → Set Loc} {Q : Nat → (Loc → V) → Prop} {m : Loc → V} {P : (Loc → V) → Prop}
    (hd : ∀ i j, i < n → j < n → i ≠ j → ∀ l, l ∈ W i → l ∉ R j ∧ l ∉ W j)
    (hw : ∀ i, i < n → wp (R i) (W i) (f i) m (fun _ => Q i))
    (hR : ∀ i, i < n → ∀ l, l ∈ R i → ok false l) (hW : ∀ i, i < n → ∀ l, l ∈ W i → ok true l)
    (hP : ∀ m', (∀ i, i < n → ∃ mi, Q i mi ∧ (∀ l, l ∈ W i → m' l = mi l) ∧ ∀ l, l ∉ W i → mi l = m l) →
      (∀ l, (∀ i, i < n → l ∉ W i) → m' l = m l) → P m') : Runs ok [(n, f)] m P := by
  refine ⟨⟨phase_safe hd hw hR hW, fun _ _ => trivial⟩, ?_⟩
  rintro m' ⟨m1, e1, e2⟩
  rw [show m' = m1 from e2]
  obtain ⟨h1, h2⟩ := phase_spec hd hw e1
  exact hP m1 h1 h2

end

/-! ### Loops that count in steps -/

theorem steps_eq {n d : Nat} (hd : 0 < d) (hn : n + d ≤ 2 ^ 32) : ∀ fuel t, cdiv n d < t + fuel → t ≤ cdiv n d →
    steps n d fuel (t * d) = some ((List.range (cdiv n d - t)).map (fun k => (t + k) * d)) := by
  intro fuel
  induction fuel with
  | zero => intro t h1 h2; omega
  | succ fuel ih =>
    intro t h1 h2
    unfold steps
    by_cases h : t * d < n
    · have ht : t < cdiv n d := (Verif.Llvm.lt_cdiv hd).2 h
      rw [if_pos h]
      have e : add32 (t * d) d = (t + 1) * d := by rw [Verif.Llvm.add32_eq (by omega), Nat.succ_mul]
      rw [e, ih (t + 1) (by omega) ht]
      rw [show cdiv n d - t = (cdiv n d - (t + 1)) + 1 by omega, List.range_succ_eq_map]
      simp only [Option.map_some, List.map_cons, List.map_map, Nat.add_zero]
      congr 3
      funext k
      simp only [Function.comp_apply]
      congr 1; omega
    · have ht : ¬ t < cdiv n d := fun h' => h ((Verif.Llvm.lt_cdiv hd).1 h')
      rw [if_neg h, show cdiv n d - t = 0 by omega]
      rfl

end Verif.Gemm
