import Verif.Cache.File

/-!
# C36: processes sharing the kernel cache

Small-step model of `jitc_kernel_load` and `jitc_kernel_write` (`/repo/src/io.cpp`) executed by any
number of processes on one file system.  Every file system operation is a step of its own; between
any two steps other processes may run, and a process may terminate (crash) at any point.  Process
numbers (pid) of terminated processes may be used again.  A file is a name that refers to a file
object ("inode"); `create_hard_link` makes two names refer to the same object.

Not modelled: a crash of the operating system (which may lose data that has been written, see
`C36_any_contents` for arbitrary file contents), and hard links or removal by programs that have
nothing to do with the cache.
-/
namespace Verif.Cache

abbrev Src := List Byte

/-- Names of files in the cache directory: the entry for a hash value (`jitc_cache_entry`,
io.cpp:134-149) and the temporary file for a hash value and a process number (io.cpp:446-449).
That these are different names is shown in `Verif.Cache.Names`. -/
inductive Name where
  | entry (κ : Nat)
  | tmp (κ : Nat) (pid : Nat)
deriving DecidableEq

/-- Where a process is -/
inductive PC where
  /-- not using the cache -/
  | idle
  /-- before `fs::is_regular_file(path)` (io.cpp:301) -/
  | check (src : Src)
  /-- before `fs::file_size(path)` (io.cpp:304) -/
  | size (src : Src)
  /-- before opening the file (io.cpp:327), whose size was found to be `sz` -/
  | openF (src : Src) (sz : Nat)
  /-- before reading the header (io.cpp:330) -/
  | rdHdr (src : Src) (sz : Nat) (ino : Nat)
  /-- reading the contents (io.cpp:347); `acc` was read so far, including the header -/
  | rdBody (src : Src) (acc : List Byte) (ino : Nat)
  /-- before removing an unusable entry (io.cpp:319) -/
  | reject (src : Src)
  /-- the lookup has failed, the kernel is being compiled (eval.cpp:769) -/
  | compile (src : Src)
  /-- writing the temporary file (io.cpp:505-507), `off` bytes were written so far -/
  | writing (src : Src) (k : Kernel) (ino : Nat) (off : Nat)
  /-- before `fs::create_hard_link` (io.cpp:526) -/
  | publish (src : Src) (k : Kernel)
  /-- before removing the temporary file (io.cpp:535) -/
  | cleanup (src : Src)

structure Proc where
  pid : Nat
  pc : PC

/-- State of the file system and of the processes.  The last three components record history:
`stored` lists the kernels which some process has compiled and begun to store, with the source;
`loads` the outcomes of completed lookups; `hashed` all texts whose checksum was computed. -/
structure Sys where
  link : Name → Option Nat
  data : Nat → List Byte
  next : Nat
  proc : Nat → Option Proc
  stored : List (Src × Kernel)
  loads : List (Src × Verdict)
  hashed : List (List Byte)

/-- An empty cache directory, no processes -/
def Sys.init : Sys := ⟨fun _ => none, fun _ => [], 0, fun _ => none, [], [], []⟩

/-- Process `i` continues at `pc` -/
def Sys.goto (s : Sys) (i pid : Nat) (pc : PC) : Sys :=
  { s with proc := fun j => if j = i then some ⟨pid, pc⟩ else s.proc j }

/-- Change of a name or of the contents of a file -/
def Sys.setLink (s : Sys) (n : Name) (o : Option Nat) : Sys :=
  { s with link := fun m => if m = n then o else s.link m }
@[inherit_doc Sys.setLink]
def Sys.setData (s : Sys) (ino : Nat) (d : List Byte) : Sys :=
  { s with data := fun m => if m = ino then d else s.data m }

/-- Writing `c` at position `off`, filling a gap with zeros -/
def pwrite (d : List Byte) (off : Nat) (c : List Byte) : List Byte :=
  d.take off ++ List.replicate (off - d.length) 0#8 ++ c ++ d.drop (off + c.length)

/-- The text whose checksum is stored with a kernel -/
def sumOf (G : Codec) (src : Src) (k : Kernel) : List Byte :=
  summed (headerOf G src k).bytes src (G.compress (payload k))

/-- The size of the contents announced by the header in `acc` -/
def announced (acc : List Byte) : Nat := (Header.parse (acc.take hdrSize)).compressed_size

section
variable (G : Codec) (key : Src → Nat) (errs : Bool)

/-- One step.  `errs` tells whether reading a file may fail although it exists and is complete. -/
inductive Step : Sys → Sys → Prop
  /-- a process starts; its number is not in use by a running process -/
  | spawn (s : Sys) (i pid : Nat) : s.proc i = none → (∀ j p, s.proc j = some p → p.pid ≠ pid) →
      Step s (s.goto i pid .idle)
  /-- a process terminates, at any point -/
  | crash (s : Sys) (i : Nat) : Step s { s with proc := fun j => if j = i then none else s.proc j }
  /-- a lookup starts (io.cpp:291) -/
  | start (s : Sys) (i p : Nat) (src : Src) : s.proc i = some ⟨p, .idle⟩ → Step s (s.goto i p (.check src))
  /-- io.cpp:301-302: a missing file -/
  | checkNo (s : Sys) (i p : Nat) (src : Src) : s.proc i = some ⟨p, .check src⟩ → s.link (.entry (key src)) = none →
      Step s (s.goto i p (.compile src))
  | checkYes (s : Sys) (i p : Nat) (src : Src) : s.proc i = some ⟨p, .check src⟩ → s.link (.entry (key src)) ≠ none →
      Step s (s.goto i p (.size src))
  /-- io.cpp:304-306: the file has disappeared -/
  | sizeNo (s : Sys) (i p : Nat) (src : Src) : s.proc i = some ⟨p, .size src⟩ → s.link (.entry (key src)) = none →
      Step s (s.goto i p (.compile src))
  /-- io.cpp:323-324 -/
  | sizeYes (s : Sys) (i p : Nat) (src : Src) (ino : Nat) : s.proc i = some ⟨p, .size src⟩ →
      s.link (.entry (key src)) = some ino →
      Step s (s.goto i p (if (s.data ino).length < hdrSize then .reject src else .openF src (s.data ino).length))
  /-- io.cpp:327-331: the file cannot be opened -/
  | openNo (s : Sys) (i p : Nat) (src : Src) (sz : Nat) : s.proc i = some ⟨p, .openF src sz⟩ →
      s.link (.entry (key src)) = none → Step s (s.goto i p (.compile src))
  | openYes (s : Sys) (i p : Nat) (src : Src) (sz ino : Nat) : s.proc i = some ⟨p, .openF src sz⟩ →
      s.link (.entry (key src)) = some ino → Step s (s.goto i p (.rdHdr src sz ino))
  /-- io.cpp:330-331: reading fewer than 33 bytes is an error -/
  | hdrShort (s : Sys) (i p : Nat) (src : Src) (sz ino : Nat) : s.proc i = some ⟨p, .rdHdr src sz ino⟩ →
      (s.data ino).length < hdrSize → Step s (s.goto i p (.compile src))
  /-- io.cpp:330-341: the header (and possibly more) is read and checked -/
  | hdr (s : Sys) (i p : Nat) (src : Src) (sz ino n : Nat) : s.proc i = some ⟨p, .rdHdr src sz ino⟩ →
      hdrSize ≤ (s.data ino).length → hdrSize ≤ n →
      Step s (s.goto i p (if checkHeader sz (((s.data ino).take n).take hdrSize) src then .rdBody src ((s.data ino).take n) ino
        else .reject src))
  /-- io.cpp:347: more of the contents is read -/
  | more (s : Sys) (i p : Nat) (src : Src) (acc : List Byte) (ino n : Nat) : s.proc i = some ⟨p, .rdBody src acc ino⟩ →
      Step s (s.goto i p (.rdBody src (acc ++ ((s.data ino).drop acc.length).take n) ino))
  /-- io.cpp:347-348: the file ends too early -/
  | eof (s : Sys) (i p : Nat) (src : Src) (acc : List Byte) (ino : Nat) : s.proc i = some ⟨p, .rdBody src acc ino⟩ →
      acc.length < hdrSize + announced acc → (s.data ino).length ≤ acc.length → Step s (s.goto i p (.compile src))
  /-- reading fails for another reason -/
  | rdErr (s : Sys) (i p : Nat) (src : Src) (acc : List Byte) (ino sz : Nat) : errs = true →
      s.proc i = some ⟨p, .rdBody src acc ino⟩ ∨ s.proc i = some ⟨p, .rdHdr src sz ino⟩ ∨ s.proc i = some ⟨p, .openF src sz⟩ ∨
        s.proc i = some ⟨p, .size src⟩ ∨ s.proc i = some ⟨p, .check src⟩ → Step s (s.goto i p (.compile src))
  /-- io.cpp:352-400: everything has been read, and is rejected or accepted -/
  | decideNo (s : Sys) (i p : Nat) (src : Src) (acc : List Byte) (ino : Nat) : s.proc i = some ⟨p, .rdBody src acc ino⟩ →
      hdrSize + announced acc ≤ acc.length →
      loadBody G (acc.take hdrSize) src ((acc.drop hdrSize).take (announced acc)) = .reject →
      Step s ({ s with hashed := summed ((acc.take hdrSize).take ckOff) src ((acc.drop hdrSize).take (announced acc)) :: s.hashed }.goto i p (.reject src))
  | decideYes (s : Sys) (i p : Nat) (src : Src) (acc : List Byte) (ino : Nat) (v : Verdict) : s.proc i = some ⟨p, .rdBody src acc ino⟩ →
      hdrSize + announced acc ≤ acc.length →
      loadBody G (acc.take hdrSize) src ((acc.drop hdrSize).take (announced acc)) = v → v ≠ .reject →
      Step s ({ s with
        loads := (src, v) :: s.loads
        hashed := summed ((acc.take hdrSize).take ckOff) src ((acc.drop hdrSize).take (announced acc)) :: s.hashed }.goto i p .idle)
  /-- io.cpp:319: removal of an unusable entry -/
  | remove (s : Sys) (i p : Nat) (src : Src) : s.proc i = some ⟨p, .reject src⟩ →
      Step s ((s.setLink (.entry (key src)) none).goto i p (.compile src))
  /-- io.cpp:318, 438: read-only cache; nothing is removed or written -/
  | readOnly (s : Sys) (i p : Nat) (src : Src) : s.proc i = some ⟨p, .reject src⟩ ∨ s.proc i = some ⟨p, .compile src⟩ →
      Step s (s.goto i p .idle)
  /-- io.cpp:453: the temporary file is created.  The kernel is whatever the compiler has produced. -/
  | create (s : Sys) (i p : Nat) (src : Src) (k : Kernel) : s.proc i = some ⟨p, .compile src⟩ → Fits src k →
      s.link (.tmp (key src) p) = none →
      Step s ({ (s.setLink (.tmp (key src) p) (some s.next)).setData s.next [] with
        next := s.next + 1
        stored := (src, k) :: s.stored
        hashed := sumOf G src k :: s.hashed }.goto i p (.writing src k s.next 0))
  /-- io.cpp:453: a file of that name exists (left over from a process with the same number) and is truncated -/
  | trunc (s : Sys) (i p : Nat) (src : Src) (k : Kernel) (ino : Nat) : s.proc i = some ⟨p, .compile src⟩ → Fits src k →
      s.link (.tmp (key src) p) = some ino →
      Step s ({ s.setData ino [] with
        stored := (src, k) :: s.stored
        hashed := sumOf G src k :: s.hashed }.goto i p (.writing src k ino 0))
  /-- io.cpp:505-507: part of the data reaches the file -/
  | write (s : Sys) (i p : Nat) (src : Src) (k : Kernel) (ino off n : Nat) : s.proc i = some ⟨p, .writing src k ino off⟩ →
      Step s ((s.setData ino (pwrite (s.data ino) off (((encode G src k).drop off).take n))).goto i p
        (.writing src k ino (off + (((encode G src k).drop off).take n).length)))
  /-- io.cpp:510: all data was written -/
  | closed (s : Sys) (i p : Nat) (src : Src) (k : Kernel) (ino off : Nat) : s.proc i = some ⟨p, .writing src k ino off⟩ →
      (encode G src k).length ≤ off → Step s (s.goto i p (.publish src k))
  /-- io.cpp:510-514: writing failed -/
  | writeErr (s : Sys) (i p : Nat) (src : Src) (k : Kernel) (ino off : Nat) : s.proc i = some ⟨p, .writing src k ino off⟩ →
      Step s (s.goto i p (.cleanup src))
  /-- io.cpp:526: the entry is created -/
  | linkYes (s : Sys) (i p : Nat) (src : Src) (k : Kernel) (ino : Nat) : s.proc i = some ⟨p, .publish src k⟩ →
      s.link (.tmp (key src) p) = some ino → s.link (.entry (key src)) = none →
      Step s ((s.setLink (.entry (key src)) (some ino)).goto i p (.cleanup src))
  /-- io.cpp:527-532: there is an entry already, or another error -/
  | linkNo (s : Sys) (i p : Nat) (src : Src) (k : Kernel) : s.proc i = some ⟨p, .publish src k⟩ →
      Step s (s.goto i p (.cleanup src))
  /-- io.cpp:535: removal of the temporary file -/
  | rmTmp (s : Sys) (i p : Nat) (src : Src) : s.proc i = some ⟨p, .cleanup src⟩ →
      Step s ((s.setLink (.tmp (key src) p) none).goto i p .idle)
  /-- ... which may fail -/
  | rmTmpErr (s : Sys) (i p : Nat) (src : Src) : s.proc i = some ⟨p, .cleanup src⟩ → Step s (s.goto i p .idle)
  /-- eviction of an entry, by the sweep of any process (io.cpp:595) -/
  | evict (s : Sys) (κ : Nat) : Step s (s.setLink (.entry κ) none)

/-- States reached from an empty directory -/
inductive Reach : Sys → Prop
  | init : Reach Sys.init
  | step {s t} : Reach s → Step G key errs s t → Reach t

end

end Verif.Cache
