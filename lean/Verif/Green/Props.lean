import Verif.Green.Model

/-!
# C98: Contexts with a subset of the multiprocessors of a CUDA device
-/
namespace Verif.Green

/-! ### Specification -/

/-- Specification: where a thread launches kernels: the context that was activated last (null contexts do not count), or its original one. -/
def innermost (base : Dev) : List (Option Ctx) → Dev
  | [] => base
  | some c :: _ => c.dev
  | none :: cs => innermost base cs

/-- Specification of a history: each thread has a stack of contexts. -/
def spec (base : Threads) : (Nat → List (Option Ctx)) → List Op → List (Nat × Dev)
  | _, [] => []
  | cs, .enter t ctx :: ops => spec base (Function.update cs t (ctx :: cs t)) ops
  | cs, .leave t :: ops => spec base (Function.update cs t (cs t).tail) ops
  | cs, .launch t k :: ops => (k, innermost (base t) (cs t)) :: spec base cs ops

/-! ### Number of multiprocessors -/

theorem alignUp_eq {x a : Nat} (ha : 0 < a) (h : x + a - 1 + a ≤ 2 ^ 32) : x ≤ alignUp x a ∧ alignUp x a < x + a ∧ a ∣ alignUp x a := by
  have h1 : (x + a + (2 ^ 32 - 1)) % 2 ^ 32 = x + a - 1 := by omega
  have h2 : (x + a - 1) / a * a ≤ x + a - 1 := Nat.div_mul_le_self _ _
  have h3 : x + a - 1 < (x + a - 1) / a * a + a := Nat.lt_div_mul_add ha
  unfold alignUp ceilDiv
  rw [h1]
  generalize hk : (x + a - 1) / a * a = k at h2 h3
  have : k % 2 ^ 32 = k := by omega
  rw [this]
  exact ⟨by omega, by omega, ⟨(x + a - 1) / a, by rw [← hk, Nat.mul_comm]⟩⟩

theorem fixMin_pos (r : SmRes) (hc : r.count ≠ 0) : 0 < fixMin r ∧ fixMin r ≤ r.count := by
  unfold fixMin
  by_cases h : r.minPart = 0 ∨ r.minPart > r.count
  · rw [if_pos h]; omega
  · rw [if_neg h]; omega

theorem fixAlign_pos (r : SmRes) (hc : r.count ≠ 0) : 0 < fixAlign r ∧ fixAlign r ≤ fixMin r := by
  have := fixMin_pos r hc
  unfold fixAlign
  by_cases h : r.align = 0 ∨ r.align > fixMin r
  · rw [if_pos h]; omega
  · rw [if_neg h]; omega

/-- **C98 (size).**  A new context has at least the requested number of multiprocessors, at most those of the device, and a number that the device supports; it has less than one unit of
alignment more than needed. -/
theorem C98_count_partial {r : SmRes} {requested n : Nat} (h : smCount r requested = some n) (hr : requested + 2 * r.count ≤ 2 ^ 32) (hc : 2 * r.count ≤ 2 ^ 31) :
    requested ≤ n ∧ n ≤ r.count ∧ 0 < n ∧ (r.minPart ≤ r.count → r.minPart ≤ n) ∧ (r.align ≤ r.minPart → r.minPart ≤ r.count → r.align ∣ n ∨ r.align = 0) ∧
      n < max requested (fixMin r) + fixAlign r := by
  unfold smCount at h
  by_cases h1 : requested = 0
  · rw [if_pos h1] at h; cases h
  rw [if_neg h1] at h
  by_cases h2 : r.count = 0
  · rw [if_pos h2] at h; cases h
  rw [if_neg h2] at h
  have hm := fixMin_pos r h2
  have ha := fixAlign_pos r h2
  dsimp only at h
  obtain ⟨a1, a2, a3⟩ := alignUp_eq (x := max requested (fixMin r)) ha.1 (by omega)
  by_cases h3 : alignUp (max requested (fixMin r)) (fixAlign r) > r.count
  · rw [if_pos h3] at h; cases h
  rw [if_neg h3] at h
  cases h
  refine ⟨by omega, by omega, by omega, fun hp => ?_, fun hp hq => ?_, a2⟩
  · have : r.minPart ≤ fixMin r := by
      unfold fixMin
      by_cases h : r.minPart = 0 ∨ r.minPart > r.count
      · rw [if_pos h]; omega
      · rw [if_neg h]; exact Nat.le_refl _
    omega
  · by_cases h0 : r.align = 0
    · exact .inr h0
    · have hf : fixMin r = r.minPart := by unfold fixMin; rw [if_neg (by omega)]
      have : fixAlign r = r.align := by unfold fixAlign; rw [hf, if_neg (by omega)]
      rw [this] at a3 ⊢
      exact .inl a3

/-- Requests that fit are granted. -/
theorem C98_granted {r : SmRes} {requested : Nat} (h0 : requested ≠ 0) (hc0 : r.count ≠ 0) (hc : 2 * r.count ≤ 2 ^ 31) (hd : fixAlign r ∣ r.count) (hle : requested ≤ r.count) :
    ∃ n, smCount r requested = some n := by
  have hm := fixMin_pos r hc0
  have ha := fixAlign_pos r hc0
  obtain ⟨a1, a2, a3⟩ := alignUp_eq (x := max requested (fixMin r)) ha.1 (by omega)
  refine ⟨alignUp (max requested (fixMin r)) (fixAlign r), ?_⟩
  unfold smCount
  rw [if_neg h0, if_neg hc0]
  dsimp only
  refine if_neg ?_
  obtain ⟨k, hk⟩ := a3
  obtain ⟨m, hm'⟩ := hd
  rw [hk, hm', gt_iff_lt, Nat.not_lt]
  apply Nat.mul_le_mul_left
  by_cases hkm : k ≤ m
  · exact hkm
  · exfalso
    have : fixAlign r * (m + 1) ≤ fixAlign r * k := Nat.mul_le_mul_left _ (by omega)
    rw [Nat.mul_succ, ← hm', ← hk] at this
    omega

/-- **C98 fails** for requests close to 2^32: rounding up yields zero multiprocessors instead of an error. -/
theorem C98_count_counterexample : smCount ⟨132, 8, 8⟩ (2 ^ 32 - 1) = some 0 := by decide

/-! ### Activation -/

/-- Tokens, contexts and state of a thread -/
def Inv (t : Nat) (base : Dev) : List (Option (Nat × Dev)) → List (Option Ctx) → Dev → Prop
  | [], [], d => d = base
  | some (t', b) :: tks, some c :: cs, d => t' = t ∧ d = c.dev ∧ Inv t base tks cs b
  | none :: tks, none :: cs, d => Inv t base tks cs d
  | _, _, _ => False

theorem Inv.innermost {t : Nat} {base : Dev} : ∀ {tks : List (Option (Nat × Dev))} {cs : List (Option Ctx)} {d : Dev}, Inv t base tks cs d → d = innermost base cs
  | [], [], _, h => h
  | some _ :: _, some _ :: _, _, h => h.2.1
  | none :: tks, none :: cs, _, h => Inv.innermost (tks := tks) (cs := cs) h
  | [], _ :: _, _, h => h.elim
  | some _ :: _, [], _, h => h.elim
  | none :: _, [], _, h => h.elim
  | some _ :: _, none :: _, _, h => h.elim
  | none :: _, some _ :: _, _, h => h.elim

theorem run_eq (base : Threads) (ops : List Op) : ∀ (s : Threads) (tk : Nat → List (Option (Nat × Dev))) (cs : Nat → List (Option Ctx)), (∀ t, Inv t (base t) (tk t) (cs t) (s t)) →
    run s tk ops = spec base cs ops := by
  induction ops with
  | nil => intro s tk cs _; rfl
  | cons op ops ih =>
    intro s tk cs h
    cases op with
    | enter t ctx =>
      unfold run spec
      apply ih
      intro t'
      by_cases ht : t' = t
      · subst ht
        rw [Function.update_self, Function.update_self]
        cases ctx with
        | none => exact h t'
        | some c => exact ⟨rfl, by unfold enter; dsimp only; rw [Function.update_self], h t'⟩
      · rw [Function.update_of_ne ht, Function.update_of_ne ht]
        cases ctx with
        | none => exact h t'
        | some c => unfold enter; dsimp only; rw [Function.update_of_ne ht]; exact h t'
    | leave t =>
      unfold run spec
      have ht0 := h t
      cases hk : tk t with
      | nil =>
        rw [hk] at ht0
        cases hcs : cs t with
        | nil =>
          apply ih
          intro t'
          by_cases ht : t' = t
          · subst ht; rw [Function.update_self, hk]; rw [hcs] at ht0; exact ht0
          · rw [Function.update_of_ne ht]; exact h t'
        | cons c cs' => rw [hcs] at ht0; exact ht0.elim
      | cons x xs =>
        rw [hk] at ht0
        cases hcs : cs t with
        | nil => rw [hcs] at ht0; cases x <;> exact ht0.elim
        | cons c cs' =>
          rw [hcs] at ht0
          apply ih
          intro t'
          cases x with
          | none =>
            cases c with
            | some _ => exact ht0.elim
            | none =>
              by_cases ht : t' = t
              · subst ht; rw [Function.update_self, Function.update_self]; exact ht0
              · rw [Function.update_of_ne ht, Function.update_of_ne ht]; exact h t'
          | some b =>
            cases c with
            | none => exact ht0.elim
            | some c =>
              obtain ⟨tb, b⟩ := b
              obtain ⟨rfl, _, hi⟩ := ht0
              unfold leave
              by_cases ht : t' = tb
              · subst ht; rw [Function.update_self, Function.update_self]; dsimp only; rw [Function.update_self]; exact hi
              · rw [Function.update_of_ne ht, Function.update_of_ne ht]; dsimp only; rw [Function.update_of_ne ht]; exact h t'
    | launch t k =>
      unfold run spec
      rw [(h t).innermost, ih s tk cs h]

/-- **C98 (activation).**  In every history of any number of threads, each kernel is launched in the context that its thread has activated last and not left yet, or else in its original one. -/
theorem C98_run (base : Threads) (ops : List Op) : run base (fun _ => []) ops = spec base (fun _ => []) ops := run_eq base ops _ _ _ fun _ => rfl

/-- Leaving with the token that activation returned restores the state of all threads, whichever thread leaves. -/
theorem C98_leave (t : Nat) (ctx : Option Ctx) (s : Threads) : leave (enter t ctx s).2 (enter t ctx s).1 = s := by
  cases ctx with
  | none => rfl
  | some c =>
    unfold enter leave
    dsimp only
    rw [Function.update_idem]
    exact Function.update_eq_self t s

/-! ### Release -/

/-- **C98 (release).**  If the device has multiprocessors left, releasing a context destroys everything that was created with it and nothing else. -/
theorem C98_release_partial (h : Nat → Nat) (hinj : Function.Injective h) (live : Handles) (hnew : ∀ i, h i ∉ live) :
    release (make h true live).1 (make h true live).2 = some live := by
  have ne : ∀ i j, i ≠ j → h i ≠ h j := fun i j hij e => hij (hinj e)
  have e35 := ne 3 5 (by decide)
  have e34 := ne 3 4 (by decide)
  have e45 := ne 4 5 (by decide)
  simp [release, make, destroy, List.erase_cons, e35.symm, e34.symm, e45.symm]

/-- **C98 fails** for contexts with all multiprocessors of the device: the second handle is null, and releasing the context fails. -/
theorem C98_release_counterexample (h : Nat → Nat) (live : Handles) (h0 : ∀ i, h i ≠ 0) (hl : 0 ∉ live) : release (make h false live).1 (make h false live).2 = none := by
  have : ∀ l : Handles, 0 ∉ l → destroy 0 l = none := fun l hl => if_neg hl
  have he : ∀ (x : Nat) (l l' : Handles), 0 ∉ l → destroy x l = some l' → 0 ∉ l' := by
    intro x l l' hl hd hm
    unfold destroy at hd
    by_cases hx : x ∈ l
    · rw [if_pos hx] at hd; cases hd; exact hl (List.mem_of_mem_erase hm)
    · rw [if_neg hx] at hd; cases hd
  have hlive : 0 ∉ (make h false live).2 := by
    simp [make, hl, (h0 0).symm, (h0 3).symm, (h0 4).symm, (h0 5).symm]
  unfold release
  cases h1 : destroy (make h false live).1.dev.stream (make h false live).2 with
  | none => rfl
  | some l1 =>
    cases h2 : destroy (make h false live).1.dev.event l1 with
    | none => simp [h2]
    | some l2 =>
      cases h3 : destroy (make h false live).1.dev.syncStreamEvent l2 with
      | none => simp [h2, h3]
      | some l3 =>
        have := this l3 (he _ _ _ (he _ _ _ (he _ _ _ hlive h1) h2) h3)
        rw [Option.bind_some, h2, Option.bind_some, h3, Option.bind_some]
        show (destroy 0 l3).bind _ = none
        rw [this]
        rfl

/-! ### Examples -/

/-- Ten multiprocessors are requested from a device with 132 ones and an alignment of eight. -/
example : smCount ⟨132, 8, 8⟩ 10 = some 16 ∧ smCount ⟨132, 8, 8⟩ 133 = none ∧ 10 + 2 * 132 ≤ 2 ^ 32 := by decide

/-- A thread launches kernels in two contexts, another one in between. -/
example : run (fun t => ⟨t, t, t, t⟩) (fun _ => []) [.enter 0 (some ⟨1, 2, ⟨7, 7, 7, 7⟩⟩), .launch 0 100, .enter 0 (some ⟨1, 2, ⟨8, 8, 8, 8⟩⟩), .launch 1 101, .launch 0 102, .leave 0,
    .launch 0 103, .leave 0, .launch 0 104] =
    [(100, ⟨7, 7, 7, 7⟩), (101, ⟨1, 1, 1, 1⟩), (102, ⟨8, 8, 8, 8⟩), (103, ⟨7, 7, 7, 7⟩), (104, ⟨0, 0, 0, 0⟩)] := by decide

/-- New handles -/
example : release (make (fun i => i + 10) true [3]).1 (make (fun i => i + 10) true [3]).2 = some [3] ∧ release (make (fun i => i + 10) false [3]).1 (make (fun i => i + 10) false [3]).2 = none := by
  decide

end Verif.Green
