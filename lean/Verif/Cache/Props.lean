import Verif.Cache.Inv
import Verif.Cache.Names
import Verif.Cache.Size

/-!
# C36: the kernel cache is crash-safe
-/
namespace Verif.Cache

/-- **C36.**  A kernel that was stored completely is loaded back, for the source it was stored for. -/
theorem C36_roundtrip (G : Codec) {src : Src} {k : Kernel} (h : Fits src k) :
    load G (encode G src k) src = .ok k := load_encode G h

/-- **C36.**  Whatever the contents of a file (torn, corrupted, left over from a crash of the
machine): if it carries the checksum of some stored kernel `(src', k')` and is accepted for `src`,
then `src = src'` and the result is `k'`, or the checksum function takes the same value for the text
that was stored and the different text that was read. -/
theorem C36_any_contents (G : Codec) {src src' file : List Byte} {k' : Kernel} (hf : Fits src' k')
    (hck : (file.take hdrSize).drop ckOff = G.H (sumOf G src' k')) (hacc : load G file src ≠ .reject) :
    (src = src' ∧ load G file src = .ok k') ∨
    (let read := summed (file.take ckOff) src ((file.drop hdrSize).take (Header.parse file).compressed_size)
     read ≠ sumOf G src' k' ∧ G.H read = G.H (sumOf G src' k')) := by
  have hl : ¬ file.length < hdrSize := by
    intro hc; apply hacc; unfold load; rw [if_pos hc]
  have hch : checkHeader file.length (file.take hdrSize) src := by
    by_contra hc; apply hacc; unfold load; dsimp only; rw [if_neg hl, if_neg hc]
  have e : load G file src = loadBody G (file.take hdrSize) src ((file.drop hdrSize).take (Header.parse (file.take hdrSize)).compressed_size) := by
    unfold load; dsimp only; rw [if_neg hl, if_pos hch]
  rw [parse_take (by decide)] at e
  rw [e] at hacc ⊢
  have hpre : (file.take hdrSize).take ckOff = file.take ckOff := by
    rw [List.take_take, min_eq_left (by decide)]
  have hH : G.H (sumOf G src' k') = G.H (summed ((file.take hdrSize).take ckOff) src ((file.drop hdrSize).take (Header.parse file).compressed_size)) := by
    by_contra hc; apply hacc; unfold loadBody; dsimp only; rw [if_pos (by rw [hck]; exact hc)]
  by_cases heq : sumOf G src' k' = summed ((file.take hdrSize).take ckOff) src ((file.drop hdrSize).take (Header.parse file).compressed_size)
  · exact Or.inl (loadBody_sound G hf (by simp; omega) hch hck (fun _ => heq) hacc)
  · rw [hpre] at hH heq
    exact Or.inr ⟨fun h => heq h.symm, hH.symm⟩

/-- **C36.**  In every execution of any number of processes - interleaved arbitrarily, terminating
at any point, with process numbers used again, read and write errors, eviction of entries - in which
no two different texts have the same checksum: if a lookup for a source succeeds, then its result is
a kernel which some process has compiled for exactly this source.  -/
theorem C36_loads (G : Codec) (key : Src → Nat) (errs : Bool) {s : Sys} (h : Reach G key errs s)
    (hno : ∀ x ∈ s.hashed, ∀ y ∈ s.hashed, G.H x = G.H y → x = y) {src : Src} {v : Verdict} (hl : (src, v) ∈ s.loads) :
    ∃ k, v = .ok k ∧ (src, k) ∈ s.stored := by
  obtain ⟨x, hx, q, hq, h1, h2⟩ := (reach_inv h).glob.loads _ hl
  have := h2 (hno x hx _ ((reach_inv h).glob.fits q hq).2 h1)
  exact ⟨q.2, this.2, by have h3 : src = q.1 := this.1
                         rw [h3]; exact hq⟩

/-- **C36.**  If reading existing files does not fail, then every entry found in the directory at
any time is the complete file of some stored kernel - also while it is being stored, and after
crashes. -/
theorem C36_complete (G : Codec) (key : Src → Nat) {s : Sys} (h : Reach G key false s) {κ ino : Nat}
    (hl : s.link (.entry κ) = some ino) :
    ∃ src k, (src, k) ∈ s.stored ∧ key src = κ ∧ s.data ino = encode G src k := by
  obtain ⟨q, h1, h2, h3⟩ := (reach_inv h).glob.full rfl κ ino hl
  exact ⟨q.1, q.2, h1, h2, h3⟩

/-- **C36.**  In this case a lookup finds a kernel whenever there is an entry (if no two sources in
use have the same 128-bit hash value). -/
theorem C36_hit (G : Codec) (key : Src → Nat) {s : Sys} (h : Reach G key false s) {src : Src} {ino : Nat}
    (hl : s.link (.entry (key src)) = some ino) (hk : ∀ q ∈ s.stored, key q.1 = key src → q.1 = src) :
    ∃ k, (src, k) ∈ s.stored ∧ load G (s.data ino) src = .ok k := by
  obtain ⟨src', k, h1, h2, h3⟩ := C36_complete G key h hl
  have : src' = src := hk _ h1 h2
  subst this
  exact ⟨k, h1, by rw [h3]; exact load_encode G ((reach_inv h).glob.fits _ h1).1⟩

/-! ### A concrete run -/

/-- No compression, and a checksum that is good enough for the example -/
def exCodec : Codec where
  H x := le 16 (leVal x % (2 ^ 128 - 159))
  H_len x := le_length _ _
  compress x := if x.length < 2 ^ 32 then x else []
  decompress c n := if c.length ≤ n then some c else none
  compress_len x := by split <;> simp_all
  lossless x hx := by rw [if_pos (by omega : x.length < 2 ^ 32), if_pos (le_refl _)]

def exSrc : Src := [1#8, 2#8]
def exKernel : Kernel := ⟨[7#8, 8#8, 9#8], [0#64, 2#64]⟩

theorem exFits : Fits exSrc exKernel := by
  refine ⟨by decide, ?_⟩
  rw [payload_length]; decide

example : load exCodec (encode exCodec exSrc exKernel) exSrc = .ok exKernel := C36_roundtrip _ exFits
/-- a torn file is rejected -/
example : load exCodec ((encode exCodec exSrc exKernel).take 40) exSrc = .reject := by decide +kernel
/-- and so is a file with a flipped bit -/
example : load exCodec ((encode exCodec exSrc exKernel).set 35 0#8) exSrc = .reject := by decide +kernel

/-- A process stores a kernel and terminates before it has removed its temporary file; another
process with the same number finds the entry and loads it. -/
theorem exRun : ∃ s, Reach exCodec (fun _ => 5) false s ∧ s.loads = [(exSrc, .ok exKernel)] ∧
    s.stored = [(exSrc, exKernel)] ∧ (s.link (.tmp 5 17)).isSome ∧ s.link (.tmp 5 17) = s.link (.entry 5) ∧
    (∀ x ∈ s.hashed, ∀ y ∈ s.hashed, exCodec.H x = exCodec.H y → x = y) := by
  have r0 := Reach.step (Reach.init (G := exCodec) (key := fun _ => 5) (errs := false)) (.spawn _ 0 17 rfl (by simp [Sys.init]))
  have r1 := r0.step (.start _ 0 17 exSrc rfl)
  have r2 := r1.step (.checkNo _ 0 17 exSrc rfl rfl)
  have r3 := r2.step (.create _ 0 17 exSrc exKernel rfl exFits rfl)
  have r4 := r3.step (.write _ 0 17 exSrc exKernel 0 0 20 rfl)
  have r5 := r4.step (.write _ 0 17 exSrc exKernel 0 20 1000 (by simp [Sys.goto]; decide +kernel))
  have r6 := r5.step (.closed _ 0 17 exSrc exKernel 0 _ rfl (by decide +kernel))
  have r7 := r6.step (.linkYes _ 0 17 exSrc exKernel 0 rfl rfl rfl)
  have r8 := r7.step (.crash _ 0)
  have r9 := r8.step (.spawn _ 1 17 rfl (by
    intro j p hj
    by_cases h0 : j = 0
    · subst h0; cases hj
    · simp [Sys.goto, Sys.setLink, Sys.setData, Sys.init, h0] at hj))
  have r10 := r9.step (.start _ 1 17 exSrc rfl)
  have r11 := r10.step (.checkYes _ 1 17 exSrc rfl (by simp [Sys.goto, Sys.setLink]))
  have r12 := r11.step (.sizeYes _ 1 17 exSrc 0 rfl rfl)
  rw [if_neg (by decide +kernel)] at r12
  have r13 := r12.step (.openYes _ 1 17 exSrc _ 0 rfl rfl)
  have r14 := r13.step (.hdr _ 1 17 exSrc _ 0 40 rfl (by decide +kernel) (by decide))
  rw [if_pos (by decide +kernel)] at r14
  have r15 := r14.step (.more _ 1 17 exSrc _ 0 1000 rfl)
  have r16 := r15.step (.decideYes _ 1 17 exSrc _ 0 (.ok exKernel) rfl (by decide +kernel) (by decide +kernel) (by decide))
  refine ⟨_, r16, rfl, rfl, rfl, rfl, ?_⟩
  intro x hx y hy _
  have hx' : x = sumOf exCodec exSrc exKernel := by
    rcases List.mem_cons.1 hx with rfl | hx
    · decide +kernel
    · exact (List.mem_singleton.1 hx)
  have hy' : y = sumOf exCodec exSrc exKernel := by
    rcases List.mem_cons.1 hy with rfl | hy
    · decide +kernel
    · exact (List.mem_singleton.1 hy)
  rw [hx', hy']

end Verif.Cache
