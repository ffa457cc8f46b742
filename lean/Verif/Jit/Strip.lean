import Verif.Jit.Model
import Verif.Ops.Build
import Verif.Gather.Part
/-!
# Releasing the operands of evaluated variables
-/
namespace Verif.Jit
open Verif.Var Verif.Ops Verif.Gather

variable {s s' s'' : Store} {U U' U'' : List Nat} {u ext extSe base : Nat → Nat}
  {data : Nat → BitVec 64} {R S : List Nat}

/-- Variables are unchanged; those in `R` (outputs) and `S` (side effects) may have lost their
operands, and those in `R` may be stored in memory. -/
def Became (data : Nat → BitVec 64) (R S : List Nat) (k : Nat) (v w : Var) : Prop :=
  w.body = v.body ∨ ((k ∈ R ∨ k ∈ S) ∧ w.body = v.bare.body) ∨
    (k ∈ R ∧ w.body = (v.stored (data k)).body)

/-- The state of flags and scopes. -/
def flags (s : Store) : Nat × List Nat × Nat × Bool × Bool × Bool × Bool × Bool :=
  (s.scope, s.otherScopes, s.scopeCtr, s.valueNumbering, s.reuseIndices, s.constProp, s.fastMath,
    s.symbolicScope)

/-- What evaluation does to the variable table. -/
structure VRel (data : Nat → BitVec 64) (R S : List Nat) (base : Nat → Nat) (s : Store)
    (U : List Nat) (s' : Store) (U' : List Nat) : Prop where
  vc : s'.variableCounter = s.variableCounter
  len : s'.len = s.len
  flags : flags s' = flags s
  size : ∀ k, (s'.vars k).size = (s.vars k).size
  keep : ∀ k, Alive s' U' k → Alive s U k ∧ Became data R S k (s.vars k) (s'.vars k)
  stay : ∀ k, 0 < base k → Alive s U k → Alive s' U' k
  cnt : ∀ i, i < s.len → (s.vars i).counter ≤ (s'.vars i).counter
  gone : ∀ i, Alive s U i → Alive s' U' i ∨ (s.vars i).counter < (s'.vars i).counter

/-- Device memory and pending side effects are unchanged. -/
def Same (s s' : Store) : Prop := s'.mem = s.mem ∧ s'.sideEffects = s.sideEffects

theorem Same.refl : Same s s := ⟨rfl, rfl⟩
theorem Same.trans (h1 : Same s s') (h2 : Same s' s'') : Same s s'' :=
  ⟨h2.1.trans h1.1, h2.2.trans h1.2⟩

theorem bare_body (v : Var) : v.bare.body = v.body.bare := rfl
theorem stored_body (v : Var) (p : BitVec 64) : (v.stored p).body = v.body.stored p := rfl
theorem bare_bare (v : Var) : v.bare.bare = v.bare := rfl
theorem stored_bare (v : Var) (p : BitVec 64) : (v.stored p).bare = v.stored p := rfl
theorem bare_stored (v : Var) (p : BitVec 64) : v.bare.stored p = v.stored p := rfl
theorem stored_stored (v : Var) (p : BitVec 64) : (v.stored p).stored p = v.stored p := rfl

theorem Became.refl {k : Nat} {v : Var} : Became data R S k v v := .inl rfl

theorem Became.trans {k : Nat} {v w x : Var} (h1 : Became data R S k v w)
    (h2 : Became data R S k w x) : Became data R S k v x := by
  rcases h2 with h2 | ⟨m2, h2⟩ | ⟨m2, h2⟩
  · rcases h1 with h1 | ⟨m1, h1⟩ | ⟨m1, h1⟩
    · exact .inl (h2.trans h1)
    · exact .inr (.inl ⟨m1, h2.trans h1⟩)
    · exact .inr (.inr ⟨m1, h2.trans h1⟩)
  · rw [bare_body] at h2
    rcases h1 with h1 | ⟨m1, h1⟩ | ⟨m1, h1⟩
    · exact .inr (.inl ⟨m2, by rw [h2, h1, bare_body]⟩)
    · exact .inr (.inl ⟨m1, by rw [h2, h1]; rfl⟩)
    · exact .inr (.inr ⟨m1, by rw [h2, h1]; rfl⟩)
  · rw [stored_body] at h2
    rcases h1 with h1 | ⟨m1, h1⟩ | ⟨m1, h1⟩
    · exact .inr (.inr ⟨m2, by rw [h2, h1, stored_body]⟩)
    · exact .inr (.inr ⟨m2, by rw [h2, h1]; rfl⟩)
    · exact .inr (.inr ⟨m2, by rw [h2, h1]; rfl⟩)

theorem Became.mono {R' S' : List Nat} {k : Nat} {v w : Var} (h : Became data R S k v w)
    (hR : ∀ k ∈ R, k ∈ R') (hS : ∀ k ∈ S, k ∈ S') : Became data R' S' k v w := by
  rcases h with h | ⟨m, h⟩ | ⟨m, h⟩
  · exact .inl h
  · exact .inr (.inl ⟨m.imp (hR k) (hS k), h⟩)
  · exact .inr (.inr ⟨hR k m, h⟩)

/-- Everything but kind, operands, payload, scope and `consumed` is unchanged. -/
theorem Became.fields {k : Nat} {v w : Var} (h : Became data R S k v w) :
    w.uid = v.uid ∧ w.type = v.type ∧ w.backend = v.backend ∧ w.counter = v.counter ∧
    w.writePtr = v.writePtr ∧ (v.kind = .evaluated → w.kind = .evaluated) := by
  have key : ∀ x : Var, x.uid = v.uid → x.type = v.type → x.backend = v.backend →
      x.counter = v.counter → x.writePtr = v.writePtr → (v.kind = .evaluated → x.kind = .evaluated) →
      w.body = x.body → w.uid = v.uid ∧ w.type = v.type ∧ w.backend = v.backend ∧
        w.counter = v.counter ∧ w.writePtr = v.writePtr ∧ (v.kind = .evaluated → w.kind = .evaluated) := by
    intro x h1 h2 h3 h4 h5 h6 e
    refine ⟨(body_uid e).trans h1, ?_, ?_, (body_counter e).trans h4, ?_, ?_⟩
    · exact (show w.type = x.type by simpa [Var.body] using congrArg Var.type e).trans h2
    · exact (show w.backend = x.backend by simpa [Var.body] using congrArg Var.backend e).trans h3
    · exact (show w.writePtr = x.writePtr by simpa [Var.body] using congrArg Var.writePtr e).trans h5
    · intro hk; rw [body_kind e]; exact h6 hk
  rcases h with h | ⟨_, h⟩ | ⟨_, h⟩
  · exact key v rfl rfl rfl rfl rfl id h
  · exact key v.bare rfl rfl rfl rfl rfl id h
  · exact key (v.stored (data k)) rfl rfl rfl rfl rfl (fun _ => rfl) h

theorem VRel.refl : VRel data R S base s U s U where
  vc := rfl
  len := rfl
  flags := rfl
  size := fun _ => rfl
  keep := fun _ h => ⟨h, .refl⟩
  stay := fun _ _ h => h
  cnt := fun _ _ => le_refl _
  gone := fun _ h => .inl h

theorem VRel.trans (h1 : VRel data R S base s U s' U') (h2 : VRel data R S base s' U' s'' U'') :
    VRel data R S base s U s'' U'' where
  vc := h2.vc.trans h1.vc
  len := h2.len.trans h1.len
  flags := h2.flags.trans h1.flags
  size := fun k => (h2.size k).trans (h1.size k)
  keep := by
    intro k hk
    obtain ⟨a2, b2⟩ := h2.keep k hk
    obtain ⟨a1, b1⟩ := h1.keep k a2
    exact ⟨a1, b1.trans b2⟩
  stay := fun k hb hk => h2.stay k hb (h1.stay k hb hk)
  cnt := fun i hi => le_trans (h1.cnt i hi) (h2.cnt i (by rw [h1.len]; exact hi))
  gone := by
    intro i hi
    rcases h1.gone i hi with a1 | h
    · rcases h2.gone i a1 with a2 | h
      · exact .inl a2
      · exact .inr (lt_of_le_of_lt (h1.cnt i hi.2.1) h)
    · exact .inr (lt_of_lt_of_le h (h2.cnt i (by rw [h1.len]; exact hi.2.1)))

theorem VRel.mono {R' S' : List Nat} {base' : Nat → Nat} (h : VRel data R S base s U s' U')
    (hb : ∀ i, 0 < base' i → 0 < base i) (hR : ∀ k ∈ R, k ∈ R') (hS : ∀ k ∈ S, k ∈ S') :
    VRel data R' S' base' s U s' U' where
  vc := h.vc
  len := h.len
  flags := h.flags
  size := h.size
  keep := fun k hk => ⟨(h.keep k hk).1, (h.keep k hk).2.mono hR hS⟩
  stay := fun k hk => h.stay k (hb k hk)
  cnt := h.cnt
  gone := h.gone

theorem vrel_of_frame {ext' : Nat → Nat} {P : List Nat} (h' : Inv s' U' ext' extSe P)
    (f : Frame base s U s' U') (r : Raw s s') (hl : s'.len = s.len) :
    VRel data R S base s U s' U' where
  vc := r.1
  len := hl
  flags := by
    have e := f.env
    simp only [Store.env, Prod.mk.injEq] at e
    simp only [Jit.flags, f.scope, e]
  size := r.2
  keep := by
    intro k hk
    obtain ⟨a, b, _⟩ := f.keep k hk (by rw [← r.1]; exact h'.uids k hk)
    exact ⟨a, .inl b⟩
  stay := fun k hb hk => (f.stay k hb hk).1
  cnt := f.cnt
  gone := fun i hi => (f.gone i hi).imp (·.1) id

theorem same_of_frame (f : Frame base s U s' U') : Same s s' := ⟨Frame.mem f, f.side⟩

theorem wp_and_wlp {α : Type} {m : M α} {Q Q' : α → Store → Prop} {Rr : Store → Prop}
    {T : Stop → Prop} (h : wp m s Q Rr T) (h' : wlp m s Q') :
    wp m s (fun a s' => Q a s' ∧ Q' a s') Rr T := by
  unfold wp at *
  cases hm : m s <;> rw [hm] at h <;> try exact h
  exact ⟨h, h' _ _ hm⟩

theorem decRef_v {d : Nat} (h : Inv s U (plus ext [d]) extSe []) {Rr : Store → Prop}
    {T : Stop → Prop} :
    wp (decRef d) s (fun _ s' => ∃ U', Inv s' U' ext extSe [] ∧ VRel data R S ext s U s' U' ∧
      Same s s') Rr T := by
  refine wp_post (wp_and_wlp (decRef_spec h) raw_decRef) ?_
  rintro _ s' ⟨⟨U', a1, a2, a3⟩, r⟩
  exact ⟨U', a1, vrel_of_frame a1 a2 r a3, same_of_frame a2⟩

theorem decRefs_v : ∀ (l : List Nat) {s : Store} {U : List Nat}, Inv s U (plus ext l) extSe [] →
    ∀ {Rr : Store → Prop} {T : Stop → Prop},
    wp (decRefs l) s (fun _ s' => ∃ U', Inv s' U' ext extSe [] ∧ VRel data R S ext s U s' U' ∧
      Same s s') Rr T
  | [], s, U, h, _, _ => by
    rw [plus_nil] at h
    exact ⟨U, h, VRel.refl, Same.refl⟩
  | d :: l, s, U, h, _, _ => by
    rw [plus_cons] at h
    unfold decRefs
    rw [wp_bind]
    refine wp_post (decRef_v (data := data) (R := R) (S := S) h) ?_
    rintro _ s1 ⟨U1, a1, a2, a3⟩
    refine wp_post (decRefs_v l a1) ?_
    rintro _ s2 ⟨U2, b1, b2, b3⟩
    exact ⟨U2, b1, (a2.mono (fun _ => plus_pos_left) (fun _ => id) (fun _ => id)).trans b2, a3.trans b3⟩

theorem incRef_v {i : Nat} (h : Inv s U ext extSe []) (hi : Alive s U i) {Rr : Store → Prop} :
    wp (incRefV i) s (fun _ s' => Inv s' U (plus ext [i]) extSe [] ∧ VRel data R S ext s U s' U ∧
      Same s s' ∧ ∀ k, (s'.vars k).body = (s.vars k).body) Rr (· = .limit) := by
  refine wp_post (incRefV_spec h hi) ?_
  rintro _ s' ⟨a1, rfl⟩
  have f : Frame ext s U (s.set i { s.vars i with refCount := (s.vars i).refCount + 1 }) U :=
    Frame.setCounts
  refine ⟨a1, vrel_of_frame a1 f (Raw.set rfl) rfl, same_of_frame f, fun k => ?_⟩
  by_cases hk : k = i
  · subst hk; rw [set_self]; rfl
  · rw [set_ne _ _ hk]

theorem incRefs_v : ∀ (l : List Nat) {s : Store} {ext : Nat → Nat}, Inv s U ext extSe [] →
    (∀ i ∈ l, Alive s U i) → ∀ {Rr : Store → Prop},
    wp (incRefs l) s (fun _ s' => Inv s' U (plus ext l) extSe [] ∧ VRel data R S ext s U s' U ∧
      Same s s' ∧ ∀ k, (s'.vars k).body = (s.vars k).body) Rr (· = .limit)
  | [], s, ext, h, _, _ => by
    unfold incRefs
    rw [wp_pure, plus_nil]
    exact ⟨h, VRel.refl, Same.refl, fun _ => rfl⟩
  | i :: l, s, ext, h, hl, _ => by
    have hi := hl i (by simp)
    unfold incRefs
    rw [wp_bind]
    unfold incRef
    rw [if_neg hi.1, wp_bind, wp_getVar h hi]
    refine wp_post (incRef_v (data := data) (R := R) (S := S) h hi) ?_
    rintro _ s1 ⟨a1, a2, a3, a4⟩
    refine wp_post (incRefs_v l a1 (fun k hk => ?_)) ?_
    · have := hl k (by simp [hk])
      unfold Alive at this ⊢
      rw [a2.len]; exact this
    rintro _ s2 ⟨b1, b2, b3, b4⟩
    refine ⟨?_, a2.trans (b2.mono (fun _ => plus_pos_left) (fun _ => id) (fun _ => id)), a3.trans b3,
      fun k => (b4 k).trans (a4 k)⟩
    rw [plus_cons, plus_comm]; exact b1

/-- The cleanup step: the operands of variable `i` become references of the caller. -/
theorem strip_spec (h : Inv s U ext extSe []) {i : Nat} (hi : Alive s U i)
    (hw : (s.vars i).writePtr = false) {out : Bool} {p : BitVec 64}
    (hk : out = true → (s.vars i).kind ≠ .evaluated) :
    Inv (s.strip i out p) U
      (plus ext [(s.vars i).d0, (s.vars i).d1, (s.vars i).d2, (s.vars i).d3]) extSe [] ∧
    (s.strip i out p).vars i = (if out then (s.vars i).stored p else (s.vars i).bare) ∧
    (∀ k, k ≠ i → (s.strip i out p).vars k = s.vars k) ∧
    (s.strip i out p).variableCounter = s.variableCounter ∧ (s.strip i out p).len = s.len ∧
    flags (s.strip i out p) = flags s ∧ Same s (s.strip i out p) := by
  obtain ⟨l, e, hl1, hl2, _⟩ := lvnDrop_spec (fun k j hm => (h.lvn k j hm).2.1) h.lvnKeys i
  generalize hs2 : s.strip i out p = s2
  unfold Store.strip at hs2
  rw [e] at hs2
  dsimp only at hs2
  have f_vi : s2.vars i = (if out then (s.vars i).stored p else (s.vars i).bare) := by
    subst hs2; split <;> exact set_self _ _ _
  have f_ne : ∀ k, k ≠ i → s2.vars k = s.vars k := by
    intro k hki; subst hs2; split <;> exact set_ne _ _ hki
  have f_len : s2.len = s.len := by subst hs2; split <;> rfl
  have f_un : s2.unused = s.unused := by subst hs2; split <;> rfl
  have f_vc : s2.variableCounter = s.variableCounter := by subst hs2; split <;> rfl
  have f_fl : flags s2 = flags s := by subst hs2; split <;> rfl
  have f_same : Same s s2 := by subst hs2; split <;> exact ⟨rfl, rfl⟩
  have f_f : s2.freed = s.freed := by subst hs2; split <;> rfl
  have f_lvn : s2.lvn = l := by subst hs2; split <;> rfl
  have f_a : s2.acquired = if out && !(s.vars i).retainData then p :: s.acquired else s.acquired := by
    subst hs2; split <;> rfl
  clear hs2
  have hal : ∀ k, Alive s2 U k ↔ Alive s U k := by intro k; unfold Alive; rw [f_len]
  have e_refs : (s2.vars i).refs = [0, 0, 0, 0] ∧ (s2.vars i).refsSe = [] ∧
      (s2.vars i).uid = (s.vars i).uid ∧ (s2.vars i).refCount = (s.vars i).refCount ∧
      (s2.vars i).refCountSe = (s.vars i).refCountSe := by
    rw [f_vi]
    cases out
    · rw [if_neg (by decide)]
      refine ⟨?_, ?_, rfl, rfl, rfl⟩ <;> simp [Var.refs, Var.refsSe, Var.bare, hw]
    · rw [if_pos rfl]
      refine ⟨?_, ?_, rfl, rfl, rfl⟩ <;> simp [Var.refs, Var.refsSe, Var.stored, Var.bare, hw]
  have o_refs : (s.vars i).refs = [(s.vars i).d0, (s.vars i).d1, (s.vars i).d2, (s.vars i).d3] := by
    simp [Var.refs, hw]
  have o_refsSe : (s.vars i).refsSe = [] := by simp [Var.refsSe, hw]
  rw [← o_refs]
  have v_all : ∀ k, (s2.vars k).uid = (s.vars k).uid ∧ (s2.vars k).refCount = (s.vars k).refCount ∧
      (s2.vars k).refCountSe = (s.vars k).refCountSe ∧ (s2.vars k).refsSe = (s.vars k).refsSe := by
    intro k
    by_cases hki : k = i
    · subst hki
      exact ⟨e_refs.2.2.1, e_refs.2.2.2.1, e_refs.2.2.2.2, by rw [e_refs.2.1, o_refsSe]⟩
    · rw [f_ne k hki]; exact ⟨rfl, rfl, rfl, rfl⟩
  have hsum : ∀ k, k ≠ 0 → refSum s U k = refSum s2 U k + (s.vars i).refs.count k := by
    intro k hk0
    unfold refSum
    rw [f_len]
    have := sum_point s.len i
      (fun j => if Alive s U j then (s.vars j).refs.count k else 0)
      (fun j => if Alive s2 U j then (s2.vars j).refs.count k else 0) hi.2.1
      (by
        intro j hj
        simp only [hal, f_ne j hj])
    simp only [hal, if_pos hi, e_refs.1] at this
    have z : List.count k [0, 0, 0, 0] = 0 := by
      rw [List.count_eq_zero]; simp [hk0]
    rw [z] at this
    simp only [hal]
    omega
  have hsumSe := refSumSe_congr f_len (fun j => (hal j).symm) (fun j _ => (v_all j).2.2.2)
  have hown : ∀ p', owned s2 U p' = owned s U p' +
      if out && !(s.vars i).retainData && p == p' then 1 else 0 := by
    intro p'
    unfold owned
    rw [f_len]
    have := sum_point s.len i
      (fun j => if Alive s U j ∧ (s.vars j).owns p' = true then 1 else 0)
      (fun j => if Alive s2 U j ∧ (s2.vars j).owns p' = true then 1 else 0) hi.2.1
      (by
        intro j hj
        simp only [hal, f_ne j hj])
    simp only [hal, hi, true_and, f_vi] at this
    simp only [hal]
    cases out with
    | false =>
      have e1 : (s.vars i).bare.owns p' = (s.vars i).owns p' := rfl
      simp only [Bool.false_eq_true, if_false, e1] at this
      simp only [Bool.false_and, Bool.false_eq_true, if_false]
      omega
    | true =>
      have e1 : (s.vars i).owns p' = false := by
        have := hk rfl
        simp [Var.owns, Var.isEvaluated, this]
      have e2 : ((s.vars i).stored p).owns p' = (!(s.vars i).retainData && p == p') := by
        simp [Var.owns, Var.isEvaluated, Var.stored, Var.bare]
      simp only [if_true, e1, e2, Bool.false_eq_true, if_false] at this
      simp only [Bool.true_and]
      omega
  refine ⟨⟨?_, ?_, ?_, ?_, ?_, ?_, ?_, ?_, ?_, List.nodup_nil, ?_, ?_, ?_⟩, f_vi, f_ne, f_vc, f_len,
    f_fl, f_same⟩
  · rw [f_un]; exact h.rep
  · rw [f_len]; exact h.ub
  · rw [f_len]; exact h.len
  · intro k hk'
    rw [hal] at hk'
    obtain ⟨a1, a2, a3, a4⟩ := h.dead k hk'
    rw [(v_all k).2.1, (v_all k).2.2.1]
    refine ⟨a1, a2, ?_, a4⟩
    unfold plus
    rw [a3]
    split
    · rfl
    · rename_i hk0
      rw [Nat.zero_add, List.count_eq_zero]
      intro hm
      exact hk' (h.deps i hi k (List.mem_append_left _ hm) hk0).1
  · intro j hj d hd hd0
    rw [hal] at hj
    rw [hal, (v_all j).1, (v_all d).1]
    by_cases hji : j = i
    · subst hji
      rw [e_refs.1, e_refs.2.1] at hd
      simp at hd
      exact absurd hd hd0
    · rw [f_ne j hji] at hd
      exact h.deps j hj d hd hd0
  · intro k hk'
    rw [hal] at hk'
    rw [(v_all k).1, f_vc]; exact h.uids k hk'
  · intro k hk'
    rw [hal] at hk'
    rw [(v_all k).2.1, h.rc k hk', hsum k hk'.1]
    unfold plus
    rw [if_neg hk'.1]
    omega
  · intro k hk'
    rw [hal] at hk'
    rw [(v_all k).2.2.1, hsumSe]; exact h.rcSe k hk'
  · intro k
    rw [(v_all k).2.1, (v_all k).2.2.1, hal]; exact h.pend k
  · intro k j hm
    rw [f_lvn] at hm
    obtain ⟨m1, m2⟩ := (hl2 _).1 hm
    obtain ⟨a1, a2, a3⟩ := h.lvn k j m1
    dsimp only at m2
    rw [hal, f_ne j m2]
    exact ⟨a1, a2, a3⟩
  · rw [f_lvn]; exact hl1
  · intro p'
    have := h.bal p'
    rw [hown, f_f, f_a]
    cases hc : (out && !(s.vars i).retainData) with
    | false => simp only [Bool.false_and, Bool.false_eq_true, if_false]; omega
    | true =>
      simp only [Bool.true_and, if_true, List.count_cons]
      omega

/-- The cleanup step as a transition. -/
theorem strip_v (h : Inv s U ext extSe []) {i : Nat} (hi : Alive s U i)
    (hw : (s.vars i).writePtr = false) {out : Bool}
    (hk : out = true → (s.vars i).kind ≠ .evaluated) (ho : out = true → i ∈ R)
    (hm : i ∈ R ∨ i ∈ S) :
    VRel data R S base s U (s.strip i out (data i)) U := by
  obtain ⟨_, a2, a3, a4, a5, a6, _⟩ := strip_spec h hi hw (p := data i) hk
  have hal : ∀ k, Alive (s.strip i out (data i)) U k ↔ Alive s U k := by
    intro k; unfold Alive; rw [a5]
  have hb : Became data R S i (s.vars i) ((s.strip i out (data i)).vars i) := by
    rw [a2]
    cases out with
    | false => exact .inr (.inl ⟨hm, rfl⟩)
    | true => exact .inr (.inr ⟨ho rfl, rfl⟩)
  have hb' : ∀ k, Became data R S k (s.vars k) ((s.strip i out (data i)).vars k) := by
    intro k
    by_cases hki : k = i
    · subst hki; exact hb
    · rw [a3 k hki]; exact .refl
  refine ⟨a4, a5, a6, ?_, ?_, ?_, ?_, ?_⟩
  · intro k
    by_cases hki : k = i
    · subst hki; rw [a2]; cases out <;> rfl
    · rw [a3 k hki]
  · intro k hk'
    exact ⟨(hal k).1 hk', hb' k⟩
  · intro k _ hk'
    exact (hal k).2 hk'
  · intro k _; rw [(hb' k).fields.2.2.2.1]
  · intro k hk'
    exact .inl ((hal k).2 hk')

end Verif.Jit
