import Verif.Jit.Props
import Verif.Eval.KernelProps
/-!
# A reference implementation of kernel launches, and example runs
-/
namespace Verif.Jit
open Verif.Var Verif.Ops Verif.Gather

variable {s s' : Store} {U : List Nat} {u ext : Nat → Nat}

/-- An interpreter of expressions. -/
def interp (s : Store) : Nat → Nat → Nat → Option (BitVec 64)
  | 0, _, _ => none
  | f + 1, i, l =>
    if (s.vars i).kind = .literal then some (norm (s.vars i).type (s.vars i).literal)
    else if (s.vars i).kind = .evaluated then
      some (norm (s.vars i).type (s.mem (s.vars i).literal (if (s.vars i).size = 1 then 0 else l)))
    else if (s.vars i).kind = .counter then some (norm (s.vars i).type (BitVec.ofNat 64 l))
    else if (s.vars i).kind = .defaultMask then some (norm (s.vars i).type 1#64)
    else if (s.vars i).kind = .gather then
      (interp s f (s.vars i).d2 l).bind fun m =>
        if m.getLsbD 0 then (interp s f (s.vars i).d1 l).map fun x =>
          norm (s.vars i).type (s.mem (s.vars (s.vars i).d0).literal x.toNat)
        else some 0#64
    else
      let x := (interp s f (s.vars i).d0 l).getD 0#64
      let y := (interp s f (s.vars i).d1 l).getD 0#64
      let w := (interp s f (s.vars i).d2 l).getD 0#64
      (sem1 (s.vars i).kind (s.vars i).type (s.vars (s.vars i).d0).type x).orElse fun _ =>
        (sem2 (s.vars i).kind (s.vars i).type (s.vars (s.vars i).d0).type (s.vars (s.vars i).d1).type
          x y).orElse fun _ =>
        sem3 (s.vars i).kind (s.vars i).type (s.vars (s.vars i).d0).type (s.vars (s.vars i).d1).type
          (s.vars (s.vars i).d2).type x y w

/-- The kinds of leaves and gathers. -/
def special (k : Kind) : Prop :=
  k = .literal ∨ k = .evaluated ∨ k = .counter ∨ k = .defaultMask ∨ k = .gather

theorem sem1_special {k : Kind} {t t0 : VType} {x : BitVec 64} (h : special k) : sem1 k t t0 x = none := by
  rcases h with rfl | rfl | rfl | rfl | rfl <;> simp [sem1]
theorem sem2_special {k : Kind} {t t0 t1 : VType} {x y : BitVec 64} (h : special k) :
    sem2 k t t0 t1 x y = none := by
  rcases h with rfl | rfl | rfl | rfl | rfl <;> simp [sem2]
theorem sem3_special {k : Kind} {t t0 t1 t2 : VType} {x y w : BitVec 64} (h : special k) :
    sem3 k t t0 t1 t2 x y w = none := by
  rcases h with rfl | rfl | rfl | rfl | rfl <;> simp [sem3]

theorem sem21 {k : Kind} {t t0 t' t0' t1' : VType} {x x' y' z : BitVec 64}
    (h : sem2 k t' t0' t1' x' y' = some z) : sem1 k t t0 x = none := by
  cases k <;> first | (simp [sem1]; done) | (simp [sem2] at h; done)
theorem sem31 {k : Kind} {t t0 t' t0' t1' t2' : VType} {x x' y' w' z : BitVec 64}
    (h : sem3 k t' t0' t1' t2' x' y' w' = some z) : sem1 k t t0 x = none := by
  cases k <;> first | (simp [sem1]; done) | (simp [sem3] at h; done)
theorem sem32 {k : Kind} {t t0 t1 t' t0' t1' t2' : VType} {x y x' y' w' z : BitVec 64}
    (h : sem3 k t' t0' t1' t2' x' y' w' = some z) : sem2 k t t0 t1 x y = none := by
  cases k <;> first | (simp [sem2]; done) | (simp [sem3] at h; done)

theorem interp_node {f i l : Nat} (h : ¬ special (s.vars i).kind) : interp s (f + 1) i l =
    ((sem1 (s.vars i).kind (s.vars i).type (s.vars (s.vars i).d0).type
        ((interp s f (s.vars i).d0 l).getD 0#64)).orElse fun _ =>
      (sem2 (s.vars i).kind (s.vars i).type (s.vars (s.vars i).d0).type (s.vars (s.vars i).d1).type
        ((interp s f (s.vars i).d0 l).getD 0#64) ((interp s f (s.vars i).d1 l).getD 0#64)).orElse fun _ =>
      sem3 (s.vars i).kind (s.vars i).type (s.vars (s.vars i).d0).type (s.vars (s.vars i).d1).type
        (s.vars (s.vars i).d2).type ((interp s f (s.vars i).d0 l).getD 0#64)
        ((interp s f (s.vars i).d1 l).getD 0#64) ((interp s f (s.vars i).d2 l).getD 0#64)) := by
  unfold special at h
  simp only [not_or] at h
  obtain ⟨h1, h2, h3, h4, h5⟩ := h
  conv => lhs; unfold interp
  rw [if_neg h1, if_neg h2, if_neg h3, if_neg h4, if_neg h5]

/-- The interpreter computes the values of expressions. -/
theorem interp_val (h : Inv s U ext (fun _ => 0) []) {i l : Nat} {x : BitVec 64} (hv : Val s i l x) :
    ∀ f, Alive s U i → (s.vars i).uid < f → interp s f i l = some x := by
  have dep : ∀ {k d : Nat}, Alive s U k → (s.vars k).writePtr = false →
      d ∈ [(s.vars k).d0, (s.vars k).d1, (s.vars k).d2, (s.vars k).d3] → d ≠ 0 →
      Alive s U d ∧ (s.vars d).uid < (s.vars k).uid := by
    intro k d ha hw hd h0
    exact h.deps k ha d (List.mem_append_left _ (by rw [refs_of hw]; exact hd)) h0
  induction hv with
  | @literal i l hk =>
    intro f ha hf
    obtain ⟨f, rfl⟩ : ∃ g, f = g + 1 := ⟨f - 1, by omega⟩
    unfold interp; rw [if_pos hk]
  | @evaluated i l hk =>
    intro f ha hf
    obtain ⟨f, rfl⟩ : ∃ g, f = g + 1 := ⟨f - 1, by omega⟩
    unfold interp; rw [if_neg (by rw [hk]; decide), if_pos hk]
  | @counter i l hk =>
    intro f ha hf
    obtain ⟨f, rfl⟩ : ∃ g, f = g + 1 := ⟨f - 1, by omega⟩
    unfold interp; rw [if_neg (by rw [hk]; decide), if_neg (by rw [hk]; decide), if_pos hk]
  | @defaultMask i l hk =>
    intro f ha hf
    obtain ⟨f, rfl⟩ : ∃ g, f = g + 1 := ⟨f - 1, by omega⟩
    unfold interp
    rw [if_neg (by rw [hk]; decide), if_neg (by rw [hk]; decide), if_neg (by rw [hk]; decide), if_pos hk]
  | @gatherOff i l m hk hw h2 hm hb ih =>
    intro f ha hf
    obtain ⟨f, rfl⟩ : ∃ g, f = g + 1 := ⟨f - 1, by omega⟩
    obtain ⟨a, b⟩ := dep ha hw (d := (s.vars i).d2) (by simp) h2
    unfold interp
    rw [if_neg (by rw [hk]; decide), if_neg (by rw [hk]; decide), if_neg (by rw [hk]; decide),
      if_neg (by rw [hk]; decide), if_pos hk, ih f a (by omega), Option.bind_some, if_neg (by rw [hb]; decide)]
  | @gatherOn i l x m hk hw h0 h1 h2 hk0 hx hm hb ihx ihm =>
    intro f ha hf
    obtain ⟨f, rfl⟩ : ∃ g, f = g + 1 := ⟨f - 1, by omega⟩
    obtain ⟨a1, b1⟩ := dep ha hw (d := (s.vars i).d1) (by simp) h1
    obtain ⟨a2, b2⟩ := dep ha hw (d := (s.vars i).d2) (by simp) h2
    unfold interp
    rw [if_neg (by rw [hk]; decide), if_neg (by rw [hk]; decide), if_neg (by rw [hk]; decide),
      if_neg (by rw [hk]; decide), if_pos hk, ihm f a2 (by omega), Option.bind_some, if_pos hb,
      ihx f a1 (by omega), Option.map_some]
  | @node1 i l x z hw h0 hx hz ih =>
    intro f ha hf
    obtain ⟨f, rfl⟩ : ∃ g, f = g + 1 := ⟨f - 1, by omega⟩
    obtain ⟨a0, b0⟩ := dep ha hw (d := (s.vars i).d0) (by simp) h0
    rw [interp_node (fun hs => by rw [sem1_special hs] at hz; cases hz), ih f a0 (by omega), Option.getD_some, hz]
    rfl
  | @node2 i l x y z hw h0 h1 hx hy hz ihx ihy =>
    intro f ha hf
    obtain ⟨f, rfl⟩ : ∃ g, f = g + 1 := ⟨f - 1, by omega⟩
    obtain ⟨a0, b0⟩ := dep ha hw (d := (s.vars i).d0) (by simp) h0
    obtain ⟨a1, b1⟩ := dep ha hw (d := (s.vars i).d1) (by simp) h1
    rw [interp_node (fun hs => by rw [sem2_special hs] at hz; cases hz), ihx f a0 (by omega),
      ihy f a1 (by omega), Option.getD_some, Option.getD_some, sem21 hz, hz]
    rfl
  | @node3 i l x y w z hw h0 h1 h2 hx hy hq hz ihx ihy ihw =>
    intro f ha hf
    obtain ⟨f, rfl⟩ : ∃ g, f = g + 1 := ⟨f - 1, by omega⟩
    obtain ⟨a0, b0⟩ := dep ha hw (d := (s.vars i).d0) (by simp) h0
    obtain ⟨a1, b1⟩ := dep ha hw (d := (s.vars i).d1) (by simp) h1
    obtain ⟨a2, b2⟩ := dep ha hw (d := (s.vars i).d2) (by simp) h2
    rw [interp_node (fun hs => by rw [sem3_special hs] at hz; cases hz), ihx f a0 (by omega),
      ihy f a1 (by omega), ihw f a2 (by omega), Option.getD_some, Option.getD_some, Option.getD_some,
      sem31 hz, sem32 hz, hz]
    rfl

/-- An address beyond all literals and arrays. -/
def top (s : Store) : Nat := 1 + ((List.range s.len).map fun i => (s.vars i).literal.toNat).foldr max 0

theorem le_foldr {l : List Nat} {x : Nat} (h : x ∈ l) : x ≤ l.foldr max 0 := by
  induction l with
  | nil => cases h
  | cons y ys ih =>
    rw [List.foldr_cons]
    rcases List.mem_cons.1 h with rfl | h
    · exact le_max_left _ _
    · exact le_trans (ih h) (le_max_right _ _)

theorem lt_top {i : Nat} (h : i < s.len) : (s.vars i).literal.toNat < top s := by
  have := le_foldr (List.mem_map.2 ⟨i, List.mem_range.2 h, rfl⟩ :
    (s.vars i).literal.toNat ∈ (List.range s.len).map fun i => (s.vars i).literal.toNat)
  unfold top
  omega

instance (s : Store) (out : List Eval.SV) (roots : List Nat) (r : Nat) :
    Decidable (IsOutput s out roots r) := by unfold IsOutput; infer_instance

/-- A launch that computes the outputs with the interpreter.  Writes of side effects are ignored. -/
def refLaunch (s : Store) (out : List Eval.SV) (roots : List Nat) : Launched :=
  if top s + s.len ≥ 2 ^ 64 then .failed s.mem
  else .ok (fun r => BitVec.ofNat 64 (top s + r)) (fun p l =>
    if top s ≤ p.toNat ∧ IsOutput s out roots (p.toNat - top s) then
      (interp s (s.variableCounter + 1) (p.toNat - top s) l).getD 0#64
    else s.mem p l)

/-- The contract of launches can be met. -/
theorem refLaunch_ok : LaunchOK refLaunch := by
  intro s U ext out roots data mem h hlive he
  unfold refLaunch at he
  by_cases hb : top s + s.len ≥ 2 ^ 64
  · rw [if_pos hb] at he; cases he
  rw [if_neg hb] at he
  simp only [Launched.ok.injEq] at he
  obtain ⟨rfl, rfl⟩ := he
  have al : ∀ r, IsOutput s out roots r → Alive s U r := by
    rintro r ⟨_, x, hx, rfl, _⟩
    exact (live_alive h).1 (hlive x hx)
  have nat : ∀ r, IsOutput s out roots r → (BitVec.ofNat 64 (top s + r)).toNat = top s + r := by
    intro r hr
    have := (al r hr).2.1
    rw [BitVec.toNat_ofNat]
    exact Nat.mod_eq_of_lt (by omega)
  refine ⟨?_, ?_, ?_⟩
  · intro r hr _ l x hl hx
    dsimp only
    rw [nat r hr, Nat.add_sub_cancel_left, if_pos ⟨by omega, hr⟩,
      interp_val h hx.1 _ (al r hr) (by have := h.uids r (al r hr); omega), Option.getD_some]
    exact hx.1.norm
  · intro r hr j hj
    have aj := (live_alive h).1 hj
    have key : ∀ {k}, k < s.len → BitVec.ofNat 64 (top s + r) ≠ (s.vars k).literal := by
      intro k hk e
      have h1 := nat r hr
      rw [e] at h1
      have := lt_top hk
      omega
    refine ⟨fun _ => key aj.2.1, fun _ hw h0 => key ?_⟩
    exact (h.deps j aj (s.vars j).d0 (List.mem_append_left _ (by rw [refs_of hw]; simp)) h0).1.2.1
  · intro p hp _
    funext l
    dsimp only
    rw [if_neg]
    rintro ⟨h1, h2⟩
    refine hp _ h2 ?_
    apply BitVec.eq_of_toNat_eq
    rw [nat _ h2]
    omega

/-- Insertion sorts, no evaluation so far, and the interpreter. -/
def refEnv : Env where
  stdSort := Eval.insSort Eval.Bucket.key
  stableSort := Eval.insSort Eval.SV.key
  taskSort := Eval.insSort Eval.Task.key
  gen := Eval.Gen.St.init
  launch := refLaunch

theorem refEnv_ok : EnvOK refEnv :=
  ⟨(Eval.insSort_ok _).toSortOk, Eval.insSort_ok _, Eval.insSort_ok _, Eval.idle_init⟩

end Verif.Jit
