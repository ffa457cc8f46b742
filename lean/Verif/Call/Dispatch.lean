import Verif.Call.UploadProps
import Mathlib.Data.Fintype.Card
import Mathlib.Data.List.FinRange

/-!
# C60: the dispatch loop of virtual function calls (LLVM backend)

`/repo/src/llvm_eval.cpp:1735-1905`.  Vectors with `w` lanes are functions on `Fin w`.  A callable is an
arbitrary function of the active lanes and a state (memory, for side effects); it also sees the unmodified
vectors `self`, `offset` and the inputs, which do not change during the loop and are left out.
-/
namespace Verif.Call

open Verif.Llvm.Mem (Byte)

variable {w : Nat} {σ α : Type}

/-- `call` instruction: callable, active lanes, state; new state and returned vector -/
abbrev Callee (w : Nat) (σ α : Type) := Nat → (Fin w → Bool) → σ → σ × (Fin w → α)

/-- `@llvm.vector.reduce.umax` (llvm_eval.cpp:1848) -/
def umax (v : Fin w → Nat) : Nat := (List.finRange w).foldr (fun i m => max (v i) m) 0

theorem le_umax (v : Fin w → Nat) (i : Fin w) : v i ≤ umax v := by
  have h : ∀ l : List (Fin w), ∀ i ∈ l, v i ≤ l.foldr (fun i m => max (v i) m) 0 := by
    intro l
    induction l with
    | nil => intro _ h; cases h
    | cons a l ih =>
      intro i hi
      rw [List.foldr_cons]
      rcases List.mem_cons.1 hi with rfl | hi
      · exact Nat.le_max_left _ _
      · exact Nat.le_trans (ih i hi) (Nat.le_max_right _ _)
  exact h _ i (List.mem_finRange i)

theorem umax_mem (v : Fin w → Nat) (h : umax v ≠ 0) : ∃ i, v i = umax v := by
  have key : ∀ l : List (Fin w), l.foldr (fun i m => max (v i) m) 0 ≠ 0 → ∃ i, v i = l.foldr (fun i m => max (v i) m) 0 := by
    intro l
    induction l with
    | nil => intro h; exact absurd rfl h
    | cons a l ih =>
      intro h
      rw [List.foldr_cons] at h ⊢
      by_cases hc : l.foldr (fun i m => max (v i) m) 0 ≤ v a
      · exact ⟨a, (Nat.max_eq_left hc).symm⟩
      · rw [Nat.max_eq_right (by omega)] at h ⊢
        exact ih h
  exact key _ h

/-- Number of lanes that remain to be processed -/
def pending (v : Fin w → Nat) : Nat := (Finset.univ.filter fun i => v i ≠ 0).card

/-- `self_next` (llvm_eval.cpp:1893) -/
def selfNext (v : Fin w → Nat) : Fin w → Nat := fun i => if v i = umax v then 0 else v i

theorem pending_lt {v : Fin w → Nat} (h : umax v ≠ 0) : pending (selfNext v) < pending v := by
  obtain ⟨i, hi⟩ := umax_mem v h
  unfold pending
  refine Finset.card_lt_card ?_
  rw [Finset.ssubset_iff_of_subset]
  · refine ⟨i, ?_, ?_⟩
    · simp only [Finset.mem_filter, Finset.mem_univ, true_and]; omega
    · simp [selfNext, hi]
  · intro j hj
    rw [Finset.mem_filter] at hj ⊢
    refine ⟨Finset.mem_univ _, fun h0 => hj.2 ?_⟩
    unfold selfNext
    split
    · rfl
    · exact h0

/-- The loop `l_check` / `l_call` (llvm_eval.cpp:1831-1897): `self`, accumulator, state -/
def dispatchLoop (call : Callee w σ α) (self : Fin w → Nat) (acc : Fin w → α) (st : σ) : σ × (Fin w → α) :=
  if _h : umax self = 0 then (st, acc)
  else
    dispatchLoop call (selfNext self)
      (fun i => if self i = umax self then (call (umax self) (fun i => decide (self i = umax self)) st).2 i else acc i)
      (call (umax self) (fun i => decide (self i = umax self)) st).1
termination_by pending self
decreasing_by exact pending_lt _h

/-- A call with more than one instance (llvm_eval.cpp:1735-1765, 1831-1897): the callable of each lane is the
lower half of the entry of the dispatch table at `base`, read with a masked gather -/
def dispatchMany [Zero α] (m : Nat → Byte) (base : Nat) (call : Callee w σ α) (self : Fin w → Nat) (mask : Fin w → Bool) (st : σ) : σ × (Fin w → α) :=
  dispatchLoop call (fun i => if mask i then readLE m (base + 8 * self i) 8 % 2 ^ 32 else 0) (fun _ => 0) st

/-- A call with one instance (llvm_eval.cpp:1810-1830) -/
def dispatchOne [Zero α] (callable : Nat) (call : Callee w σ α) (mask : Fin w → Bool) (st : σ) : σ × (Fin w → α) :=
  ((call callable mask st).1, fun i => if mask i then (call callable mask st).2 i else 0)

/-! ### Specification -/

/-- Call the callables `cs` one after the other, each for the lanes with `idx i = c` -/
def runAll (call : Callee w σ α) (idx : Fin w → Nat) (cs : List Nat) (st : σ) : σ :=
  cs.foldl (fun st c => (call c (fun i => decide (idx i = c)) st).1) st

/-- The loop with arbitrary `self` and `acc`: `cs` are the callables, in decreasing order -/
theorem dispatchLoop_spec (call : Callee w σ α) : ∀ (n : Nat) (self : Fin w → Nat) (acc : Fin w → α) (st : σ), pending self = n →
    ∃ cs : List Nat, cs.Pairwise (· > ·) ∧ (∀ c, c ∈ cs ↔ c ≠ 0 ∧ ∃ i, self i = c) ∧
      (dispatchLoop call self acc st).1 = runAll call self cs st ∧
      ∀ i, (self i = 0 → (dispatchLoop call self acc st).2 i = acc i) ∧
        ∀ pre post, cs = pre ++ self i :: post →
          (dispatchLoop call self acc st).2 i = (call (self i) (fun j => decide (self j = self i)) (runAll call self pre st)).2 i := by
  intro n
  induction n using Nat.strongRecOn with
  | _ n ih =>
    intro self acc st hn
    rw [dispatchLoop]
    by_cases h : umax self = 0
    · rw [dif_pos h]
      refine ⟨[], List.Pairwise.nil, fun c => ⟨fun hc => (nomatch hc), fun hc => ?_⟩, rfl, fun i => ⟨fun _ => rfl, fun pre post hp => ?_⟩⟩
      · obtain ⟨h0, i, hi⟩ := hc
        have := le_umax self i
        omega
      · cases pre <;> cases hp
    · rw [dif_neg h]
      obtain ⟨cs, h1, h2, h3, h4⟩ := ih _ (hn ▸ pending_lt h) (selfNext self)
        (fun i => if self i = umax self then (call (umax self) (fun i => decide (self i = umax self)) st).2 i else acc i)
        (call (umax self) (fun i => decide (self i = umax self)) st).1 rfl
      obtain ⟨i0, hi0⟩ := umax_mem self h
      -- masks of the remaining calls
      have hne : ∀ c ∈ cs, c ≠ 0 ∧ c < umax self := by
        intro c hc
        obtain ⟨q1, i, q2⟩ := (h2 c).1 hc
        refine ⟨q1, ?_⟩
        unfold selfNext at q2
        have := le_umax self i
        split at q2 <;> omega
      have hmask : ∀ c, c ≠ 0 → c < umax self → (fun i => decide (selfNext self i = c)) = fun i => decide (self i = c) := by
        intro c q1 q2
        funext i
        unfold selfNext
        split
        · rw [decide_eq_decide]; omega
        · rfl
      have hrun : ∀ (l : List Nat) (s : σ), (∀ c ∈ l, c ∈ cs) → runAll call (selfNext self) l s = runAll call self l s := by
        intro l
        induction l with
        | nil => intro _ _; rfl
        | cons c l ihl =>
          intro s hl
          have hc := hne c (hl c (List.mem_cons_self ..))
          unfold runAll
          rw [List.foldl_cons, List.foldl_cons, hmask c hc.1 hc.2]
          exact ihl _ fun x hx => hl x (List.mem_cons_of_mem _ hx)
      refine ⟨umax self :: cs, List.pairwise_cons.2 ⟨fun c hc => (hne c hc).2, h1⟩, fun c => ?_, ?_, fun i => ⟨fun h0 => ?_, fun pre post hp => ?_⟩⟩
      · rw [List.mem_cons, h2]
        constructor
        · rintro (rfl | ⟨q1, i, q2⟩)
          · exact ⟨h, i0, hi0⟩
          · refine ⟨q1, i, ?_⟩
            unfold selfNext at q2
            split at q2
            · omega
            · exact q2
        · rintro ⟨q1, i, q2⟩
          by_cases e : c = umax self
          · exact Or.inl e
          · exact Or.inr ⟨q1, i, by unfold selfNext; rw [if_neg (by omega)]; exact q2⟩
      · rw [h3, hrun cs _ fun _ h => h]
        rfl
      · have hs : selfNext self i = 0 := by unfold selfNext; rw [if_neg (by omega)]; exact h0
        rw [(h4 i).1 hs, if_neg (by omega)]
      · rcases pre with _ | ⟨c, pre⟩
        · rw [List.nil_append, List.cons.injEq] at hp
          have hs : selfNext self i = 0 := by unfold selfNext; rw [if_pos hp.1.symm]
          rw [(h4 i).1 hs, if_pos hp.1.symm, hp.1]
          rfl
        · rw [List.cons_append, List.cons.injEq] at hp
          have hmem : self i ∈ cs := by rw [hp.2]; simp
          have hlt := hne _ hmem
          have hs : selfNext self i = self i := by unfold selfNext; rw [if_neg (by omega)]
          have := (h4 i).2 pre post (by rw [hs]; exact hp.2)
          rw [hs] at this
          rw [this]
          have hm := hmask (self i) hlt.1 hlt.2
          rw [hm, hrun pre _ fun x hx => by rw [hp.2]; exact List.mem_append_left _ hx, ← hp.1]
          rfl

/-- **C60.**  A virtual function call with several instances, for all instance arrays, masks, dispatch tables
and callables.  Let `idx i` be the callable that the table gives for the instance of lane `i`, or 0 if the lane
is masked or has no callable:
* the callables of the lanes are called one after the other, each of them once, for exactly its lanes;
* the result of a lane is that of its callable, and zero if it has none. -/
theorem C60_dispatch [Zero α] (m : Nat → Byte) (base : Nat) (call : Callee w σ α) (self : Fin w → Nat) (mask : Fin w → Bool) (st : σ)
    (idx : Fin w → Nat) (hidx : ∀ i, idx i = if mask i then readLE m (base + 8 * self i) 8 % 2 ^ 32 else 0) :
    ∃ cs : List Nat, cs.Nodup ∧ (∀ c, c ∈ cs ↔ c ≠ 0 ∧ ∃ i, mask i = true ∧ readLE m (base + 8 * self i) 8 % 2 ^ 32 = c) ∧
      (dispatchMany m base call self mask st).1 = cs.foldl (fun st c => (call c (fun i => decide (idx i = c)) st).1) st ∧
      (∀ i, idx i = 0 → (dispatchMany m base call self mask st).2 i = 0) ∧
      ∀ i, idx i ≠ 0 → ∃ pre post, cs = pre ++ idx i :: post ∧
        (dispatchMany m base call self mask st).2 i =
          (call (idx i) (fun j => decide (idx j = idx i)) (pre.foldl (fun st c => (call c (fun i => decide (idx i = c)) st).1) st)).2 i := by
  have hf : (fun i => if mask i then readLE m (base + 8 * self i) 8 % 2 ^ 32 else 0) = idx := funext fun i => (hidx i).symm
  unfold dispatchMany
  rw [hf]
  obtain ⟨cs, h1, h2, h3, h4⟩ := dispatchLoop_spec call _ idx (fun _ => 0) st rfl
  refine ⟨cs, h1.imp fun h => by omega, fun c => ?_, h3, fun i hi => (h4 i).1 hi, fun i hi => ?_⟩
  · rw [h2]
    refine and_congr_right fun h0 => ⟨?_, ?_⟩
    · rintro ⟨i, hi⟩
      rw [hidx] at hi
      split at hi
      · exact ⟨i, by assumption, hi⟩
      · omega
    · rintro ⟨i, hm, hi⟩
      exact ⟨i, by rw [hidx, if_pos hm]; exact hi⟩
  · obtain ⟨pre, post, hp⟩ := List.append_of_mem ((h2 (idx i)).2 ⟨hi, i, rfl⟩)
    exact ⟨pre, post, hp, (h4 i).2 pre post hp⟩

/-- **C60.**  If callables have no side effects, and results are computed lane by lane: each active lane gets
the value of its own callable. -/
theorem C60_pure [Zero α] (m : Nat → Byte) (base : Nat) (f : Nat → Fin w → α) (self : Fin w → Nat) (mask : Fin w → Bool) (i : Fin w) :
    (dispatchMany m base (fun c _ (_ : Unit) => ((), f c)) self mask ()).2 i =
      if mask i ∧ readLE m (base + 8 * self i) 8 % 2 ^ 32 ≠ 0 then f (readLE m (base + 8 * self i) 8 % 2 ^ 32) i else 0 := by
  obtain ⟨cs, _, _, _, h1, h2⟩ := C60_dispatch m base (fun c _ (_ : Unit) => ((), f c)) self mask ()
    (fun i => if mask i then readLE m (base + 8 * self i) 8 % 2 ^ 32 else 0) fun _ => rfl
  by_cases hm : mask i
  · by_cases h0 : readLE m (base + 8 * self i) 8 % 2 ^ 32 = 0
    · rw [h1 i (by rw [if_pos hm]; exact h0), if_neg (fun h => h.2 h0)]
    · obtain ⟨pre, post, _, h⟩ := h2 i (by rw [if_pos hm]; exact h0)
      rw [h]
      simp only [if_pos hm]
      exact (if_pos ⟨hm, h0⟩).symm
  · rw [h1 i (by rw [if_neg hm]), if_neg (fun h => hm h.1)]

/-- **C60.**  A call with one instance calls it once for the active lanes; the others get zero. -/
theorem C60_single [Zero α] (callable : Nat) (call : Callee w σ α) (mask : Fin w → Bool) (st : σ) :
    (dispatchOne callable call mask st).1 = (call callable mask st).1 ∧
    ∀ i, (dispatchOne callable call mask st).2 i = if mask i = true then (call callable mask st).2 i else 0 := ⟨rfl, fun _ => rfl⟩

/-- **C60**, with C35: after the upload, a lane whose instance is number `k` in the list of the call runs
callable `k` of this list; lanes with id 0 and masked lanes get zero. -/
theorem C60_instances [Zero α] (workers ideal : Nat) (hid : 0 < ideal) (e : Env) (hok : EnvOk e) (hal : 0 < e.p.alignment) (al : Nat) (hal0 : 0 < al)
    (hdvd : al ∣ e.p.alignment) (evs : List Ev) (hs : (starts evs).Nodup) (hg : (getterIds evs).Nodup) (hf : (finishes evs).Perm (starts evs))
    (hord : Ordered evs) (hsmall : total al (runBuf e evs) < 2 ^ 32) (hn : (uploadEntries e al (runBuf e evs)).length + ideal ≤ 2 ^ 32) (dst : Nat)
    (hsrc : NoSource e dst (dst + total al (runBuf e evs))) (m m' : Nat → Byte)
    (hm' : Verif.Par.Ends [upload workers ideal e al (runBuf e evs) dst] m m')
    (id base : Nat) (hcode : Code.call id base ∈ (runBuf e evs).code) (hc0 : ∀ c ∈ (e.calls id).callable, c ≠ 0) (h0 : 0 ∉ (e.calls id).instId)
    (f : Nat → Fin w → α) (self : Fin w → Nat) (mask : Fin w → Bool) (i : Fin w) :
    (∀ (k c : Nat), (e.calls id).instId[k]? = some (self i) → (e.calls id).callable[k]? = some c →
      (dispatchMany m' (dst + base) (fun c _ (_ : Unit) => ((), f c)) self mask ()).2 i = if mask i = true then f c i else 0) ∧
    (self i = 0 → (dispatchMany m' (dst + base) (fun c _ (_ : Unit) => ((), f c)) self mask ()).2 i = 0) := by
  obtain ⟨_, h⟩ := C35_upload_partial workers ideal hid e hok hal al hal0 hdvd evs hs hg hf hord hsmall hn dst hsrc m
  obtain ⟨_, h1, _⟩ := h m' hm'
  obtain ⟨_, _, hcnt, hz, start, _, _, hdec, _⟩ := h1 id base hcode
  rw [C60_pure]
  refine ⟨fun k c hk hc => ?_, fun hi => ?_⟩
  · have hkl : k < (e.calls id).instId.length := by
      by_contra hcon
      rw [List.getElem?_eq_none (by omega)] at hk
      cases hk
    obtain ⟨l, hl⟩ : ∃ l, (e.lay id).1[k]? = some l := by
      have := (C34_layout e.p hal (e.calls id).old (e.calls id).insts fun c hc x hx => (hok.bucket id c hc x hx).1).2.2.2.1
      refine ⟨_, List.getElem?_eq_getElem ?_⟩
      show k < (layoutCall _ _ _).1.length
      rw [this, (hok.inst id).1]
      exact hkl
    rw [(hdec k (self i) c l hk hc hl).1]
    have := hc0 c (List.mem_of_getElem? hc)
    by_cases hm : mask i <;> simp [hm, this]
  · rw [hi, hz 0 (Nat.succ_pos _) h0]
    simp

/-- Five lanes with callables 3, 1, none, 3 and 1, of which the last is masked -/
example : ∃ r, r = dispatchLoop (w := 5) (fun c act (st : List (Nat × List Bool)) => (st ++ [(c, (List.finRange 5).map act)], fun i => 10 * c + i.val))
    (fun i => [3, 1, 0, 3, 0].getD i.val 0) (fun _ => 0) [] ∧
    r.1 = [(3, [true, false, false, true, false]), (1, [false, true, false, false, false])] ∧ (List.finRange 5).map r.2 = [30, 11, 0, 33, 0] := by
  refine ⟨_, rfl, ?_, ?_⟩ <;> decide +kernel

end Verif.Call
