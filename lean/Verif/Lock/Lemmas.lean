import Verif.Lock.Model
import Mathlib.Tactic.ByContra
/-! Invariants of the lock and of the log queue. -/
namespace Verif.Lock

/-- Between the successful exchange and the store of 0. -/
def phys (th : Th) : Bool :=
  decide (0 < th.depth) ||
  match th.pc with
  | .acqGot _ | .relCheck | .relStore _ | .pendReset | .pendDec => true
  | _ => false

def Cnt (count depth : Nat) : Prop := count = depth ∨ count = depth + PENDING

def pcOk (count : Nat) (th : Th) : Prop :=
  match th.pc with
  | .run | .acqLoad _ | .logPushed => 0 < th.depth → Cnt count th.depth
  | .restore _ | .relDec => 0 < th.depth ∧ Cnt count th.depth
  | .acqTry _ | .acqSpin _ | .acqWeak _ | .flush | .deliver => th.depth = 0
  | .acqGot _ => th.depth = 0 ∧ count = 0
  | .relCheck => Cnt count th.depth
  | .relStore _ => th.depth = 0 ∧ count = 0
  | .pendReset => th.depth = 0 ∧ count = PENDING
  | .pendDec => th.depth = 0 ∧ count = 1

def framesOk (fs : List Frame) : Prop := ∀ t b, .del t b ∈ fs → b = 0

structure ThOk (owner count i : Nat) (th : Th) : Prop where
  phys : phys th = true ↔ owner = i + 1
  pc : pcOk count th
  bound : th.depth < PENDING
  frames : framesOk th.frames

structure Inv (s : St) : Prop where
  th : ∀ (i : Nat) (th : Th), s.threads[i]? = some th → ThOk s.owner s.count i th
  free : s.owner = 0 → s.count = 0
  owner : s.owner ≠ 0 → ∃ th, s.threads[s.owner - 1]? = some th

/-- pcOk of a thread outside of the critical section does not depend on the counter. -/
theorem pcOk_irrel {c c' : Nat} {th : Th} (h : phys th = false) (hp : pcOk c th) : pcOk c' th := by
  unfold phys at h
  unfold pcOk at *
  cases hpc : th.pc <;> simp [hpc] at h hp ⊢ <;> omega

@[simp] theorem upd_owner (s : St) (i : Nat) (th : Th) : (s.upd i th).owner = s.owner := rfl
@[simp] theorem upd_count (s : St) (i : Nat) (th : Th) : (s.upd i th).count = s.count := rfl

theorem upd_get {s : St} {i j : Nat} {th : Th} (hi : i < s.threads.length) :
    (s.upd i th).threads[j]? = if j = i then some th else s.threads[j]? := by
  unfold St.upd
  simp only [List.getElem?_set]
  by_cases h : i = j
  · subst h; simp [hi]
  · have : ¬ j = i := fun e => h e.symm
    simp [h, this]

/-- Preservation of the invariant by an update of thread `i` together with the owner and the counter. -/
theorem Inv.update {s : St} (hI : Inv s) {i : Nat} {th th' : Th} (hi : s.threads[i]? = some th)
    {s' : St} (hthr : s'.threads = s.threads.set i th')
    (hown : s'.owner = s.owner ∨ (s.owner = 0 ∧ s'.owner = i + 1) ∨ (s.owner = i + 1 ∧ s'.owner = 0))
    (hcnt : s'.count = s.count ∨ s.owner = i + 1)
    (hok : ThOk s'.owner s'.count i th') (hfree : s'.owner = 0 → s'.count = 0) : Inv s' := by
  have hlt : i < s.threads.length := by
    rcases Nat.lt_or_ge i s.threads.length with h | h
    · exact h
    · rw [List.getElem?_eq_none h] at hi; cases hi
  have hget : ∀ j, s'.threads[j]? = if j = i then some th' else s.threads[j]? := by
    intro j
    rw [hthr, List.getElem?_set]
    by_cases h : i = j
    · subst h; simp [hlt]
    · have : ¬ j = i := fun e => h e.symm
      simp [h, this]
  refine ⟨?_, hfree, ?_⟩
  · intro j u hj
    rw [hget] at hj
    by_cases e : j = i
    · subst e; simp at hj; subst hj; exact hok
    · simp only [e, if_false] at hj
      have hu := hI.th j u hj
      refine ⟨?_, ?_, hu.bound, hu.frames⟩
      · rw [hu.phys]
        constructor
        · intro h
          rcases hown with h1 | ⟨h1, h2⟩ | ⟨h1, h2⟩ <;> omega
        · intro h
          rcases hown with h1 | ⟨h1, h2⟩ | ⟨h1, h2⟩ <;> omega
      · rcases hcnt with h | h
        · rw [h]; exact hu.pc
        · have : phys u = false := by
            cases hp : phys u
            · rfl
            · have := hu.phys.1 hp; omega
          exact pcOk_irrel this hu.pc
  · intro h
    rcases hown with h1 | ⟨h1, h2⟩ | ⟨h1, h2⟩
    · rw [h1] at h ⊢
      obtain ⟨u, hu⟩ := hI.owner h
      rw [hget]
      by_cases e : s.owner - 1 = i
      · rw [if_pos e]; exact ⟨_, rfl⟩
      · rw [if_neg e]; exact ⟨u, hu⟩
    · rw [h2, hget]
      simp
    · omega

theorem inv_init (n : Nat) : Inv (init n) := by
  refine ⟨?_, fun _ => rfl, fun h => absurd rfl h⟩
  intro i th h
  have : th = {} := by
    simp [init, List.getElem?_replicate] at h
    exact h.2.symm
  subst this
  refine ⟨by simp [phys, init], ?_, by decide, ?_⟩
  · simp [pcOk]
  · intro t b h; cases h

theorem acqDone_cases (k : Option Bool) : acqDone k = .run ∨ ∃ p, acqDone k = .restore p := by
  cases k
  · exact Or.inl rfl
  · exact Or.inr ⟨_, rfl⟩

theorem cnt_set {c d : Nat} (h : Cnt c d) (hd : d < PENDING) : Cnt (setPending c) d := by
  unfold Cnt setPending at *
  split <;> omega

theorem cnt_mod {c d : Nat} (h : Cnt c d) (hd : d < PENDING) : c % PENDING = d := by
  unfold Cnt at h
  rcases h with rfl | rfl
  · exact Nat.mod_eq_of_lt hd
  · rw [Nat.add_mod_right]; exact Nat.mod_eq_of_lt hd

theorem P_pos : 1 < PENDING := by decide

theorem inv_step {s s' : St} (hI : Inv s) {i : Nat} {a : Act} (h : step s i a = some s') : Inv s' := by
  unfold step at h
  have hsome : ∃ th, s.threads[i]? = some th := by
    cases hth : s.threads[i]? with
    | none => rw [hth] at h; cases h
    | some th => exact ⟨th, rfl⟩
  obtain ⟨th, hth⟩ := hsome
  · rw [hth] at h
    simp only at h
    have hok := hI.th i th hth
    obtain ⟨hphys, hpc, hbound, hfr⟩ := hok
    have hP := P_pos
    cases hp : th.pc <;> cases a <;> simp only [hp] at h <;> try (cases h; done)
    case run.acquire =>
      cases h
      refine hI.update hth rfl (Or.inl rfl) (Or.inl rfl) ⟨?_, ?_, hbound, hfr⟩ hI.free
      · simpa [phys, hp] using hphys
      · simpa [pcOk, hp] using hpc
    case run.release =>
      split at h
      · cases h
      · cases h
        rename_i hd
        refine hI.update hth rfl (Or.inl rfl) (Or.inl rfl) ⟨?_, ?_, hbound, hfr⟩ hI.free
        · simpa [phys, hp] using hphys
        · simp [pcOk, hp] at hpc ⊢
          exact ⟨by omega, hpc (by omega)⟩
    case run.log m =>
      cases h
      refine hI.update hth rfl (Or.inl rfl) (Or.inl rfl) ⟨?_, ?_, hbound, hfr⟩ hI.free
      · simpa [phys, hp] using hphys
      · simpa [pcOk, hp] using hpc
    case run.unlockBegin =>
      split at h
      · cases h
      · cases h
        rename_i hd
        have ho : s.owner = i + 1 := hphys.1 (by simp [phys]; omega)
        simp [pcOk, hp] at hpc
        have hc := hpc (by omega)
        have hm := cnt_mod hc hbound
        refine hI.update hth rfl (Or.inl rfl) (Or.inr ho) ⟨?_, ?_, hbound, ?_⟩ ?_
        · simpa [phys, hp, St.upd] using hphys
        · simp only [pcOk, St.upd]
          exact ⟨by omega, Or.inl hm⟩
        · intro t b hb
          simp at hb
          exact hfr t b hb
        · intro h0; simp only [St.upd] at h0; omega
    case run.unlockEnd =>
      split at h
      · rename_i p fs hf
        cases h
        refine hI.update hth rfl (Or.inl rfl) (Or.inl rfl) ⟨?_, ?_, hbound, ?_⟩ hI.free
        · simpa [phys, hp] using hphys
        · simpa [pcOk, hp] using hpc
        · intro t b hb; exact hfr t b (by rw [hf]; simp [hb])
      · cases h
    case run.flushApi =>
      split at h
      · cases h
        rename_i hd
        refine hI.update hth rfl (Or.inl rfl) (Or.inl rfl) ⟨?_, ?_, hbound, hfr⟩ hI.free
        · simpa [phys, hp] using hphys
        · simpa [pcOk] using hd
      · cases h
    case run.next =>
      split at h
      · rename_i m todo base fs hf
        split at h
        · cases h
          refine hI.update hth rfl (Or.inl rfl) (Or.inl rfl) ⟨?_, ?_, hbound, ?_⟩ hI.free
          · simpa [phys, hp] using hphys
          · simpa [pcOk, hp] using hpc
          · intro t b hb
            simp at hb
            rcases hb with ⟨rfl, rfl⟩ | hb
            · exact hfr (m :: t) b (by rw [hf]; simp)
            · exact hfr t b (by rw [hf]; simp [hb])
        · cases h
      · rename_i base fs hf
        split at h
        · cases h
          refine hI.update hth rfl (Or.inl rfl) (Or.inl rfl) ⟨?_, ?_, hbound, ?_⟩ hI.free
          · simpa [phys, hp] using hphys
          · simpa [pcOk, hp] using hpc
          · intro t b hb; exact hfr t b (by rw [hf]; simp [hb])
        · cases h
      · cases h
    case acqLoad.load k v =>
      split at h
      · rename_i hv
        split at h
        · rename_i hself
          have ho := hv.1 hself
          split at h
          · rename_i hb
            cases h
            have hdp : 0 < th.depth := by
              have := hphys.2 ho
              simpa [phys, hp] using this
            simp [pcOk, hp] at hpc
            have hc := hpc hdp
            have hc' : Cnt (s.count + 1) (th.depth + 1) := by unfold Cnt at *; omega
            refine hI.update hth rfl (Or.inl rfl) (Or.inr ho) ⟨?_, ?_, hb, hfr⟩ ?_
            · simp [phys, St.upd, ho]
            · rcases acqDone_cases k with e | ⟨p, e⟩ <;> simp [pcOk, e, St.upd, hc']
            · intro h0; simp only [St.upd] at h0; omega
          · cases h
        · rename_i hself
          have hno : s.owner ≠ i + 1 := fun e => hself (hv.2 e)
          have hd0 : th.depth = 0 := by
            by_contra hne
            exact hno (hphys.1 (by simp [phys]; omega))
          split at h
          · cases h
            refine hI.update hth rfl (Or.inl rfl) (Or.inl rfl) ⟨?_, ?_, hbound, hfr⟩ hI.free
            · simpa [phys, hp] using hphys
            · simpa [pcOk] using hd0
          · cases h
            refine hI.update hth rfl (Or.inl rfl) (Or.inl rfl) ⟨?_, ?_, hbound, hfr⟩ hI.free
            · simpa [phys, hp] using hphys
            · simpa [pcOk] using hd0
      · cases h
    case acqTry.cas k sp =>
      simp [pcOk, hp] at hpc
      split at h
      · rename_i ho
        cases h
        refine hI.update hth rfl (Or.inr (Or.inl ⟨ho, rfl⟩)) (Or.inl rfl) ⟨?_, ?_, hbound, hfr⟩ ?_
        · simp [phys, St.upd]
        · simp [pcOk, St.upd, hpc, hI.free ho]
        · intro h0; simp [St.upd] at h0
      · cases h
        refine hI.update hth rfl (Or.inl rfl) (Or.inl rfl) ⟨?_, ?_, hbound, hfr⟩ hI.free
        · simpa [phys, hp] using hphys
        · simpa [pcOk] using hpc
    case acqSpin.load k v =>
      simp [pcOk, hp] at hpc
      split at h
      · split at h
        · cases h
          refine hI.update hth rfl (Or.inl rfl) (Or.inl rfl) ⟨?_, ?_, hbound, hfr⟩ hI.free
          · simpa [phys, hp] using hphys
          · simpa [pcOk] using hpc
        · cases h; exact hI
      · cases h
    case acqWeak.cas k sp =>
      simp [pcOk, hp] at hpc
      split at h
      · rename_i ho
        cases h
        refine hI.update hth rfl (Or.inr (Or.inl ⟨ho.1, rfl⟩)) (Or.inl rfl) ⟨?_, ?_, hbound, hfr⟩ ?_
        · simp [phys, St.upd]
        · simp [pcOk, St.upd, hpc, hI.free ho.1]
        · intro h0; simp [St.upd] at h0
      · cases h
        refine hI.update hth rfl (Or.inl rfl) (Or.inl rfl) ⟨?_, ?_, hbound, hfr⟩ hI.free
        · simpa [phys, hp] using hphys
        · simpa [pcOk] using hpc
    case acqGot.go k =>
      cases h
      have ho : s.owner = i + 1 := hphys.1 (by simp [phys, hp])
      refine hI.update hth rfl (Or.inl rfl) (Or.inr ho) ⟨?_, ?_, hP, hfr⟩ ?_
      · simp [phys, St.upd, ho]
      · rcases acqDone_cases k with e | ⟨p, e⟩ <;> simp [pcOk, e, St.upd, Cnt]
      · intro h0; simp only [St.upd] at h0; omega
    case restore.go p =>
      cases h
      simp [pcOk, hp] at hpc
      have ho : s.owner = i + 1 := hphys.1 (by simp [phys]; omega)
      refine hI.update hth rfl (Or.inl rfl) (Or.inr ho) ⟨?_, ?_, hbound, hfr⟩ ?_
      · simpa [phys, hp, St.upd] using hphys
      · simp only [pcOk, St.upd]
        intro _
        split
        · exact cnt_set hpc.2 hbound
        · exact hpc.2
      · intro h0; simp only [St.upd] at h0; omega
    case relDec.go =>
      cases h
      simp [pcOk, hp] at hpc
      have ho : s.owner = i + 1 := hphys.1 (by simp [phys]; omega)
      refine hI.update hth rfl (Or.inl rfl) (Or.inr ho) ⟨?_, ?_, by simp only; omega, hfr⟩ ?_
      · simp [phys, St.upd, ho]
      · simp only [pcOk, St.upd]
        have := hpc.2
        unfold Cnt at *
        omega
      · intro h0; simp only [St.upd] at h0; omega
    case relCheck.go =>
      simp [pcOk, hp] at hpc
      have ho : s.owner = i + 1 := hphys.1 (by simp [phys, hp])
      unfold Cnt at hpc
      split at h
      · rename_i h0
        cases h
        refine hI.update hth rfl (Or.inl rfl) (Or.inl rfl) ⟨?_, ?_, hbound, hfr⟩ hI.free
        · simp [phys, ho, St.upd]
        · simp only [pcOk, St.upd]; omega
      · split at h
        · cases h
          refine hI.update hth rfl (Or.inl rfl) (Or.inl rfl) ⟨?_, ?_, hbound, hfr⟩ hI.free
          · simp [phys, ho, St.upd]
          · simp only [pcOk, St.upd]; omega
        · cases h
          refine hI.update hth rfl (Or.inl rfl) (Or.inl rfl) ⟨?_, ?_, hbound, hfr⟩ hI.free
          · simp [phys, ho, St.upd]; omega
          · simp only [pcOk, St.upd, Cnt]; intro _; exact hpc
    case relStore.go f =>
      cases h
      simp [pcOk, hp] at hpc
      have ho : s.owner = i + 1 := hphys.1 (by simp [phys, hp])
      refine hI.update hth rfl (Or.inr (Or.inr ⟨ho, rfl⟩)) (Or.inl rfl) ⟨?_, ?_, hbound, hfr⟩ ?_
      · cases f <;> simp [phys, St.upd, hpc]
      · cases f <;> simp [pcOk, St.upd, hpc]
      · intro _; exact hpc.2
    case pendReset.go =>
      cases h
      simp [pcOk, hp] at hpc
      have ho : s.owner = i + 1 := hphys.1 (by simp [phys, hp])
      refine hI.update hth rfl (Or.inl rfl) (Or.inr ho) ⟨?_, ?_, hbound, hfr⟩ ?_
      · simp [phys, St.upd, ho]
      · simp [pcOk, St.upd, hpc]
      · intro h0; simp only [St.upd] at h0; omega
    case pendDec.go =>
      cases h
      simp [pcOk, hp] at hpc
      have ho : s.owner = i + 1 := hphys.1 (by simp [phys, hp])
      refine hI.update hth rfl (Or.inl rfl) (Or.inr ho) ⟨?_, ?_, hbound, hfr⟩ ?_
      · simp [phys, St.upd, ho]
      · simp [pcOk, St.upd, hpc]
      · intro h0; simp only [St.upd] at h0; omega
    case logPushed.load v =>
      simp [pcOk, hp] at hpc
      split at h
      · rename_i hv
        split at h
        · rename_i hself
          have ho := hv.1 hself
          have hdp : 0 < th.depth := by simpa [phys, hp] using hphys.2 ho
          cases h
          refine hI.update hth rfl (Or.inl rfl) (Or.inr ho) ⟨?_, ?_, hbound, hfr⟩ ?_
          · simpa [phys, hp, St.upd] using hphys
          · simp only [pcOk, St.upd]; intro _; exact cnt_set (hpc hdp) hbound
          · intro h0; simp only [St.upd] at h0; omega
        · rename_i hself
          have hno : s.owner ≠ i + 1 := fun e => hself (hv.2 e)
          have hd0 : th.depth = 0 := by
            by_contra hne
            exact hno (hphys.1 (by simp [phys]; omega))
          cases h
          refine hI.update hth rfl (Or.inl rfl) (Or.inl rfl) ⟨?_, ?_, hbound, hfr⟩ hI.free
          · simpa [phys, hp] using hphys
          · simpa [pcOk] using hd0
      · cases h
    case flush.defer d =>
      simp [pcOk, hp] at hpc
      split at h
      · cases h
        refine hI.update hth rfl (Or.inl rfl) (Or.inl rfl) ⟨?_, ?_, hbound, hfr⟩ hI.free
        · simpa [phys, hp] using hphys
        · simp [pcOk, hpc]
      · cases h
        refine hI.update hth rfl (Or.inl rfl) (Or.inl rfl) ⟨?_, ?_, hbound, hfr⟩ hI.free
        · simpa [phys, hp] using hphys
        · simp [pcOk, hpc]
    case deliver.go =>
      cases h
      simp [pcOk, hp] at hpc
      refine hI.update hth rfl (Or.inl rfl) (Or.inl rfl) ⟨?_, ?_, hbound, ?_⟩ hI.free
      · simpa [phys, hp] using hphys
      · simp [pcOk, hpc]
      · intro t b hb
        simp at hb
        rcases hb with ⟨rfl, rfl⟩ | hb
        · exact hpc
        · exact hfr t b hb

theorem inv_reach {n : Nat} {s : St} (h : Reach n s) : Inv s := by
  induction h with
  | init => exact inv_init n
  | step _ hs ih => exact inv_step ih hs

end Verif.Lock
