import Verif.Jit.Eval
import Verif.Gather.GatherSpec
/-!
# Values of variables across an evaluation
-/
namespace Verif.Jit
open Verif.Var Verif.Ops Verif.Gather

variable {s s' s'' : Store} {U U' U'' : List Nat} {u ext extSe base : Nat → Nat}
  {data : Nat → BitVec 64} {R S : List Nat}

theorem reads_trans {i j k : Nat} (h1 : Reads s i j) (h2 : Reads s j k) : Reads s i k := by
  induction h2 with
  | root => exact h1
  | dep _ a b c ih => exact .dep ih a b c

theorem refs_bare {v : Var} {d : Nat} (h : d ∈ v.bare.refs) : d = 0 := by
  unfold Var.refs Var.bare at h
  revert h
  cases v.writePtr <;> simp

theorem Became.refs {k : Nat} {v w : Var} (h : Became data R S k v w) {d : Nat} (hd : d ∈ w.refs)
    (h0 : d ≠ 0) : d ∈ v.refs ∧ w.body = v.body := by
  rcases h with h | ⟨_, h⟩ | ⟨_, h⟩
  · exact ⟨by rw [← body_refs h]; exact hd, h⟩
  · rw [body_refs h] at hd
    exact absurd (refs_bare hd) h0
  · rw [body_refs h] at hd
    exact absurd (refs_bare (v := v) hd) h0

/-- Evaluation adds no operands. -/
theorem reads_back (h' : Inv s' U' ext extSe [])
    (hb : ∀ k, Alive s' U' k → Became data R S k (s.vars k) (s'.vars k)) {k j : Nat}
    (hk : Alive s' U' k) (hr : Reads s' k j) : Reads s k j ∧ Alive s' U' j := by
  induction hr with
  | root => exact ⟨.root, hk⟩
  | @dep j d _ a b c ih =>
    obtain ⟨i1, i2⟩ := ih
    obtain ⟨e1, e2⟩ := (hb j i2).refs b c
    exact ⟨.dep i1 (by rw [← body_kind e2]; exact a) e1 c,
      (h'.deps j i2 d (List.mem_append_left _ b) c).1⟩

/-- The memory that variable `j` refers to is unchanged. -/
def Quiet (s s' : Store) (j : Nat) : Prop :=
  ((s.vars j).kind = .evaluated → s'.mem (s.vars j).literal = s.mem (s.vars j).literal) ∧
  ((s.vars j).kind = .gather → (s.vars j).writePtr = false → (s.vars j).d0 ≠ 0 →
    s'.mem (s.vars (s.vars j).d0).literal = s.mem (s.vars (s.vars j).d0).literal)

/-- What happened to variable `k`: nothing, it was stored in memory, or it had no value.  The values in
memory are only known if the variables that are read satisfy `Q`. -/
def Carried (Q : Nat → Prop) (s s' : Store) (k : Nat) : Prop :=
  (s'.vars k).body = (s.vars k).body ∨
  ((s.vars k).isNode = true ∧ ∃ p, (s'.vars k).body = ((s.vars k).stored p).body ∧
    ∀ l x, Entry s k l x → (∀ j, Reads s k j → Q j) →
      norm (s.vars k).type (s'.mem p (if (s.vars k).size = 1 then 0 else l)) = x) ∨
  (s.vars k).isNode = true ∧ ∀ l x, ¬ Val s k l x

theorem dep_reads {Q : Nat → Prop} {k l : Nat} {d : Nat} (hd : d ∈ (s.vars k).refs) (h0 : d ≠ 0)
    (hk : (s.vars k).kind ≠ .literal) (hc : ∀ j, Reads s k j → Covers (s.vars j).size l ∧ Q j) :
    ∀ j, Reads s d j → Covers (s.vars j).size l ∧ Q j :=
  fun j hj => hc j (reads_trans (.dep .root hk hd h0) hj)

theorem sem1_node {k : Kind} {t t0 : VType} {x z : BitVec 64} (h : sem1 k t t0 x = some z) :
    k ≠ .literal := by
  rintro rfl
  simp [sem1] at h
theorem sem2_node {k : Kind} {t t0 t1 : VType} {x y z : BitVec 64} (h : sem2 k t t0 t1 x y = some z) :
    k ≠ .literal := by
  rintro rfl
  simp [sem2] at h
theorem sem3_node {k : Kind} {t t0 t1 t2 : VType} {x y w z : BitVec 64}
    (h : sem3 k t t0 t1 t2 x y w = some z) : k ≠ .literal := by
  rintro rfl
  simp [sem3] at h

theorem refs_of {v : Var} (h : v.writePtr = false) : v.refs = [v.d0, v.d1, v.d2, v.d3] := by
  simp [Var.refs, h]

theorem isNode_lit {v : Var} (h : v.kind = .literal) : v.isNode = false := by
  simp [Var.isNode, h]

/-- Evaluation keeps the values of variables. -/
theorem val_carried {Q : Nat → Prop} (h' : Inv s' U' ext extSe []) (hsz : ∀ k, (s'.vars k).size = (s.vars k).size)
    (hty : ∀ k, Alive s' U' k → (s'.vars k).type = (s.vars k).type)
    (hc : ∀ k, Alive s' U' k → Carried Q s s' k) (hQ : ∀ j, Q j → Quiet s s' j) {i l : Nat} {x : BitVec 64} (hv : Val s i l x) :
    (∀ j, Reads s i j → Covers (s.vars j).size l ∧ Q j) → Alive s' U' i → Val s' i l x := by
  have via : ∀ {k l : Nat} {x : BitVec 64}, Val s k l x →
      (∀ j, Reads s k j → Covers (s.vars j).size l ∧ Q j) → Alive s' U' k →
      ((s'.vars k).body = (s.vars k).body → Val s' k l x) → Val s' k l x := by
    intro k l x hv hr ha hb
    rcases hc k ha with h | ⟨_, p, h, hp⟩ | ⟨_, h⟩
    · exact hb h
    · obtain ⟨e1, e2, e3, _⟩ := body_fields h
      have := hp l x ⟨hv, fun j hj => (hr j hj).1⟩ (fun j hj => (hr j hj).2)
      have hv' : Val s' k l (norm (s'.vars k).type
          (s'.mem (s'.vars k).literal (if (s'.vars k).size = 1 then 0 else l))) := .evaluated e1
      rw [hty k ha, hsz, e3] at hv'
      rw [← this]
      exact hv'
    · exact absurd hv (h l x)
  have dep : ∀ {k d : Nat}, Alive s' U' k → (s'.vars k).body = (s.vars k).body →
      d ∈ (s.vars k).refs → d ≠ 0 → Alive s' U' d := by
    intro k d ha hb hd h0
    exact (h'.deps k ha d (List.mem_append_left _ (by rw [body_refs hb]; exact hd)) h0).1
  induction hv with
  | @literal i l hk =>
    intro hr ha
    refine via (.literal hk) hr ha (fun hb => ?_)
    obtain ⟨e1, e2, e3, _⟩ := body_fields hb
    rw [← e2, ← e3]
    exact .literal (by rw [e1, hk])
  | @evaluated i l hk =>
    intro hr ha
    refine via (.evaluated hk) hr ha (fun hb => ?_)
    obtain ⟨e1, e2, e3, _⟩ := body_fields hb
    rw [← (hQ i (hr i .root).2).1 hk, ← hsz, ← e2, ← e3]
    exact .evaluated (by rw [e1, hk])
  | @counter i l hk =>
    intro hr ha
    refine via (.counter hk) hr ha (fun hb => ?_)
    obtain ⟨e1, e2, e3, _⟩ := body_fields hb
    rw [← e2]
    exact .counter (by rw [e1, hk])
  | @defaultMask i l hk =>
    intro hr ha
    refine via (.defaultMask hk) hr ha (fun hb => ?_)
    obtain ⟨e1, e2, e3, _⟩ := body_fields hb
    rw [← e2]
    exact .defaultMask (by rw [e1, hk])
  | @gatherOff i l m hk hw h2 hm hf ih =>
    intro hr ha
    refine via (.gatherOff hk hw h2 hm hf) hr ha (fun hb => ?_)
    obtain ⟨e1, e2, e3, d0, d1, d2, d3, ew⟩ := body_fields hb
    have m2 : (s.vars i).d2 ∈ (s.vars i).refs := by rw [refs_of hw]; simp
    have hl : (s.vars i).kind ≠ .literal := by rw [hk]; decide
    exact .gatherOff (by rw [e1, hk]) (by rw [ew, hw]) (by rw [d2]; exact h2)
      (by rw [d2]; exact ih (dep_reads m2 h2 hl hr) (dep ha hb m2 h2)) hf
  | @gatherOn i l x m hk hw h0 h1 h2 hk0 hx hm hf ihx ihm =>
    intro hr ha
    refine via (.gatherOn hk hw h0 h1 h2 hk0 hx hm hf) hr ha (fun hb => ?_)
    obtain ⟨e1, e2, e3, d0, d1, d2, d3, ew⟩ := body_fields hb
    have m0 : (s.vars i).d0 ∈ (s.vars i).refs := by rw [refs_of hw]; simp
    have m1 : (s.vars i).d1 ∈ (s.vars i).refs := by rw [refs_of hw]; simp
    have m2 : (s.vars i).d2 ∈ (s.vars i).refs := by rw [refs_of hw]; simp
    have hl : (s.vars i).kind ≠ .literal := by rw [hk]; decide
    have a0 := dep ha hb m0 h0
    have b0 : (s'.vars (s.vars i).d0).body = (s.vars (s.vars i).d0).body := by
      have hn := isNode_lit hk0
      rcases hc _ a0 with h | ⟨h, _⟩ | ⟨h, _⟩
      · exact h
      · rw [hn] at h; cases h
      · rw [hn] at h; cases h
    obtain ⟨g1, g2, g3, _⟩ := body_fields b0
    rw [← (hQ i (hr i .root).2).2 hk hw h0, ← e2, ← g3, ← d0]
    exact .gatherOn (by rw [e1, hk]) (by rw [ew, hw]) (by rw [d0]; exact h0) (by rw [d1]; exact h1)
      (by rw [d2]; exact h2) (by rw [d0, g1, hk0])
      (by rw [d1]; exact ihx (dep_reads m1 h1 hl hr) (dep ha hb m1 h1))
      (by rw [d2]; exact ihm (dep_reads m2 h2 hl hr) (dep ha hb m2 h2)) hf
  | @node1 i l x z hw h0 hx hz ih =>
    intro hr ha
    refine via (.node1 hw h0 hx hz) hr ha (fun hb => ?_)
    obtain ⟨e1, e2, e3, d0, d1, d2, d3, ew⟩ := body_fields hb
    have m0 : (s.vars i).d0 ∈ (s.vars i).refs := by rw [refs_of hw]; simp
    have hl := sem1_node hz
    have a0 := dep ha hb m0 h0
    exact .node1 (by rw [ew, hw]) (by rw [d0]; exact h0)
      (by rw [d0]; exact ih (dep_reads m0 h0 hl hr) a0)
      (by rw [d0, e1, e2, hty _ a0]; exact hz)
  | @node2 i l x y z hw h0 h1 hx hy hz ihx ihy =>
    intro hr ha
    refine via (.node2 hw h0 h1 hx hy hz) hr ha (fun hb => ?_)
    obtain ⟨e1, e2, e3, d0, d1, d2, d3, ew⟩ := body_fields hb
    have m0 : (s.vars i).d0 ∈ (s.vars i).refs := by rw [refs_of hw]; simp
    have m1 : (s.vars i).d1 ∈ (s.vars i).refs := by rw [refs_of hw]; simp
    have hl := sem2_node hz
    have a0 := dep ha hb m0 h0
    have a1 := dep ha hb m1 h1
    exact .node2 (by rw [ew, hw]) (by rw [d0]; exact h0) (by rw [d1]; exact h1)
      (by rw [d0]; exact ihx (dep_reads m0 h0 hl hr) a0)
      (by rw [d1]; exact ihy (dep_reads m1 h1 hl hr) a1)
      (by rw [d0, d1, e1, e2, hty _ a0, hty _ a1]; exact hz)
  | @node3 i l x y w z hw h0 h1 h2 hx hy hq hz ihx ihy ihw =>
    intro hr ha
    refine via (.node3 hw h0 h1 h2 hx hy hq hz) hr ha (fun hb => ?_)
    obtain ⟨e1, e2, e3, d0, d1, d2, d3, ew⟩ := body_fields hb
    have m0 : (s.vars i).d0 ∈ (s.vars i).refs := by rw [refs_of hw]; simp
    have m1 : (s.vars i).d1 ∈ (s.vars i).refs := by rw [refs_of hw]; simp
    have m2 : (s.vars i).d2 ∈ (s.vars i).refs := by rw [refs_of hw]; simp
    have hl := sem3_node hz
    have a0 := dep ha hb m0 h0
    have a1 := dep ha hb m1 h1
    have a2 := dep ha hb m2 h2
    exact .node3 (by rw [ew, hw]) (by rw [d0]; exact h0) (by rw [d1]; exact h1) (by rw [d2]; exact h2)
      (by rw [d0]; exact ihx (dep_reads m0 h0 hl hr) a0)
      (by rw [d1]; exact ihy (dep_reads m1 h1 hl hr) a1)
      (by rw [d2]; exact ihw (dep_reads m2 h2 hl hr) a2)
      (by rw [d0, d1, d2, e1, e2, hty _ a0, hty _ a1, hty _ a2]; exact hz)

theorem VRel.types (h : VRel data R S base s U s' U') : ∀ k, Alive s' U' k →
    (s'.vars k).type = (s.vars k).type := fun k hk => ((h.keep k hk).2.fields).2.1

/-- `val_carried` for entries. -/
theorem entry_carried {Q : Nat → Prop} (h' : Inv s' U' ext extSe []) (hv : VRel data R S base s U s' U')
    (hc : ∀ k, Alive s' U' k → Carried Q s s' k) (hQ : ∀ j, Q j → Quiet s s' j) {i l : Nat} {x : BitVec 64} (he : Entry s i l x)
    (hq : ∀ j, Reads s i j → Q j) (ha : Alive s' U' i) : Entry s' i l x := by
  refine ⟨val_carried h' hv.size hv.types hc hQ he.1 (fun j hj => ⟨he.2 j hj, hq j hj⟩) ha, ?_⟩
  intro j hj
  rw [hv.size]
  exact he.2 j (reads_back h' (fun k hk => (hv.keep k hk).2) ha hj).1

/-- Steps that change neither memory nor variables. -/
theorem entry_same (h' : Inv s' U' ext extSe []) (hv : VRel data [] [] base s U s' U')
    (hm : s'.mem = s.mem) {i l : Nat} {x : BitVec 64} (he : Entry s i l x) (ha : Alive s' U' i) :
    Entry s' i l x :=
  entry_carried (Q := fun _ => True) h' hv (fun k hk => .inl (hv.keeps k hk).2)
    (fun j _ => ⟨fun _ => by rw [hm], fun _ _ _ => by rw [hm]⟩) he (fun _ _ => trivial) ha

/-- Entries of a later state were already there. -/
theorem entry_back (h' : Inv s' U' ext extSe []) (hv : VRel data [] [] base s U s' U')
    (hm : s'.mem = s.mem) {i l : Nat} {x : BitVec 64} (ha : Alive s' U' i) (he : Entry s' i l x) :
    Entry s i l x := by
  have hb : ∀ k, Alive s' U' k → (s.vars k).body = (s'.vars k).body := fun k hk => (hv.keeps k hk).2.symm
  have hrd : ∀ {j}, Alive s' U' i → Reads s i j → Reads s' i j ∧ Alive s' U' j := by
    intro j ha hr
    induction hr with
    | root => exact ⟨.root, ha⟩
    | @dep j d _ a b c ih =>
      obtain ⟨i1, i2⟩ := ih
      have b' : d ∈ (s'.vars j).refs := by rw [← body_refs (hb j i2)]; exact b
      exact ⟨.dep i1 (by rw [← body_kind (hb j i2)]; exact a) b' c,
        (h'.deps j i2 d (List.mem_append_left _ b') c).1⟩
  refine ⟨?_, fun j hj => by rw [← hv.size]; exact he.2 j (hrd ha hj).1⟩
  clear hrd
  have hv' := he.1
  clear he
  have dep : ∀ {k d : Nat}, Alive s' U' k → d ∈ (s'.vars k).refs → d ≠ 0 → Alive s' U' d :=
    fun ha hd h0 => (h'.deps _ ha _ (List.mem_append_left _ hd) h0).1
  induction hv' with
  | @literal i l hk =>
    obtain ⟨e1, e2, e3, _⟩ := body_fields (hb i ha)
    rw [← e2, ← e3]
    exact .literal (by rw [e1, hk])
  | @evaluated i l hk =>
    obtain ⟨e1, e2, e3, _⟩ := body_fields (hb i ha)
    rw [hm, hv.size, ← e2, ← e3]
    exact .evaluated (by rw [e1, hk])
  | @counter i l hk =>
    obtain ⟨e1, e2, e3, _⟩ := body_fields (hb i ha)
    rw [← e2]
    exact .counter (by rw [e1, hk])
  | @defaultMask i l hk =>
    obtain ⟨e1, e2, e3, _⟩ := body_fields (hb i ha)
    rw [← e2]
    exact .defaultMask (by rw [e1, hk])
  | @gatherOff i l m hk hw h2 hm' hf ih =>
    obtain ⟨e1, e2, e3, d0, d1, d2, d3, ew⟩ := body_fields (hb i ha)
    have m2 : (s'.vars i).d2 ∈ (s'.vars i).refs := by rw [refs_of hw]; simp
    exact .gatherOff (by rw [e1, hk]) (by rw [ew, hw]) (by rw [d2]; exact h2)
      (by rw [d2]; exact ih (dep ha m2 h2)) hf
  | @gatherOn i l x m hk hw h0 h1 h2 hk0 hx hm' hf ihx ihm =>
    obtain ⟨e1, e2, e3, d0, d1, d2, d3, ew⟩ := body_fields (hb i ha)
    have m0 : (s'.vars i).d0 ∈ (s'.vars i).refs := by rw [refs_of hw]; simp
    have m1 : (s'.vars i).d1 ∈ (s'.vars i).refs := by rw [refs_of hw]; simp
    have m2 : (s'.vars i).d2 ∈ (s'.vars i).refs := by rw [refs_of hw]; simp
    have a0 := dep ha m0 h0
    obtain ⟨g1, g2, g3, _⟩ := body_fields (hb _ a0)
    rw [hm, ← e2, ← g3, ← d0]
    exact .gatherOn (by rw [e1, hk]) (by rw [ew, hw]) (by rw [d0]; exact h0) (by rw [d1]; exact h1)
      (by rw [d2]; exact h2) (by rw [d0, g1, hk0])
      (by rw [d1]; exact ihx (dep ha m1 h1))
      (by rw [d2]; exact ihm (dep ha m2 h2)) hf
  | @node1 i l x z hw h0 hx hz ih =>
    obtain ⟨e1, e2, e3, d0, d1, d2, d3, ew⟩ := body_fields (hb i ha)
    have m0 : (s'.vars i).d0 ∈ (s'.vars i).refs := by rw [refs_of hw]; simp
    have a0 := dep ha m0 h0
    exact .node1 (by rw [ew, hw]) (by rw [d0]; exact h0) (by rw [d0]; exact ih a0)
      (by rw [d0, e1, e2, ← hv.types _ a0]; exact hz)
  | @node2 i l x y z hw h0 h1 hx hy hz ihx ihy =>
    obtain ⟨e1, e2, e3, d0, d1, d2, d3, ew⟩ := body_fields (hb i ha)
    have m0 : (s'.vars i).d0 ∈ (s'.vars i).refs := by rw [refs_of hw]; simp
    have m1 : (s'.vars i).d1 ∈ (s'.vars i).refs := by rw [refs_of hw]; simp
    have a0 := dep ha m0 h0
    have a1 := dep ha m1 h1
    exact .node2 (by rw [ew, hw]) (by rw [d0]; exact h0) (by rw [d1]; exact h1)
      (by rw [d0]; exact ihx a0) (by rw [d1]; exact ihy a1)
      (by rw [d0, d1, e1, e2, ← hv.types _ a0, ← hv.types _ a1]; exact hz)
  | @node3 i l x y w z hw h0 h1 h2 hx hy hq hz ihx ihy ihw =>
    obtain ⟨e1, e2, e3, d0, d1, d2, d3, ew⟩ := body_fields (hb i ha)
    have m0 : (s'.vars i).d0 ∈ (s'.vars i).refs := by rw [refs_of hw]; simp
    have m1 : (s'.vars i).d1 ∈ (s'.vars i).refs := by rw [refs_of hw]; simp
    have m2 : (s'.vars i).d2 ∈ (s'.vars i).refs := by rw [refs_of hw]; simp
    have a0 := dep ha m0 h0
    have a1 := dep ha m1 h1
    have a2 := dep ha m2 h2
    exact .node3 (by rw [ew, hw]) (by rw [d0]; exact h0) (by rw [d1]; exact h1) (by rw [d2]; exact h2)
      (by rw [d0]; exact ihx a0) (by rw [d1]; exact ihy a1) (by rw [d2]; exact ihw a2)
      (by rw [d0, d1, d2, e1, e2, ← hv.types _ a0, ← hv.types _ a1, ← hv.types _ a2]; exact hz)

end Verif.Jit
