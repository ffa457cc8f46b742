import Verif.Freeze.Props

/-!
# C62: functions whose replay differs from a direct execution

Every theorem shows a function (a trace for two sizes of the argument), the result of a
direct execution of the second trace, and the different result of recording the first
trace and replaying it with the second argument.  The argument is an array of 32-bit
integers or of bytes.
-/

namespace Verif.Freeze

def wMem (vt : Nat) (cs : List Nat) : Mem where
  buf := fun x => if x = 0 then
    some { cells := cs.map .byte, len := cs.length, vt := some vt } else none
  dead := fun _ => false

def wAddr (x : Nat) : Nat := x + 100

/-- Record `tr` with an argument of `n` elements; replay it with the bytes `cs`. -/
def wOutcome (vt n : Nat) (tr : List Cmd) (outs : List Arr) (n' : Nat) (cs : List Nat) : Outcome :=
  outcome exSem wAddr [] [⟨0, vt, n⟩] tr outs [⟨vt, n', 50⟩]
    (fun a => if a = 50 then some (cs.map .byte) else none) 60

/-- An array is filled: the replay uses the size of the recorded call. -/
theorem C62_memset_counterexample :
    direct exSem (wMem 8 (List.range 8)) [.memset 1 2 1 7] [⟨1, 4, 2⟩] =
      some [some (4, [some 7, some 7])] ∧
    wOutcome 8 1 [.memset 1 1 1 7] [⟨1, 4, 1⟩] 2 (List.range 8) =
      .values [some (4, [some 7])] := by decide

/-- A kernel whose launch size (4) does not depend on the size of its argument, which
happened to be a fraction of it (2) in the recorded call: the replay with 3 elements launches
6 threads. -/
theorem C62_launch_size_counterexample :
    direct exSem (wMem 4 [1, 2, 3])
        [.launch 0 4 [⟨.direct, 0, 4, 3, 1⟩, ⟨.output, 1, 4, 0, 1⟩]] [⟨1, 4, 4⟩] =
      some [some (4, [some 3, some 2, some 1, none])] ∧
    wOutcome 4 2 [.launch 0 4 [⟨.direct, 0, 4, 2, 1⟩, ⟨.output, 1, 4, 0, 1⟩]] [⟨1, 4, 4⟩] 3
        [1, 2, 3] =
      .values [some (4, [some 3, some 2, some 1, none, none, none])] := by decide

/-- A function that returns a shrunk view of its argument: the replay returns the whole
argument. -/
theorem C62_shrunk_counterexample :
    direct exSem (wMem 4 [1, 2, 3]) [] [⟨0, 4, 2⟩] = some [some (4, [some 1, some 2])] ∧
    wOutcome 4 3 [] [⟨0, 4, 2⟩] 3 [1, 2, 3] = .values [some (4, [some 1, some 2, some 3])] := by
  decide

/-- Compression of a mask that was created by a fill raises an exception, even when the replay has
the same argument. -/
theorem C62_compress_filled_counterexample :
    direct exSem (wMem 4 [1]) [.memset 1 2 1 1, .compress 1 2 2] [⟨2, 8, 2⟩] =
      some [some (8, [some 1, some 1, none, none, none, none, none, none])] ∧
    wOutcome 4 1 [.memset 1 2 1 1, .compress 1 2 2] [⟨2, 8, 2⟩] 1 [1] = .raised := by decide

/-- Compression that selects nothing in the replay: the direct execution returns an empty
array, the replay raises an exception. -/
theorem C62_compress_empty_counterexample :
    direct exSem (wMem 1 [0]) [.compress 0 1 1] [⟨1, 8, 0⟩] = some [some (8, [])] ∧
    wOutcome 1 1 [.compress 0 1 1] [⟨1, 8, 1⟩] 1 [0] = .raised := by decide

/-- A parameter block that contains an element of an array that was created by a fill: the
replay leaves these bytes undefined, even when it has the same argument. -/
theorem C62_aggregate_filled_counterexample :
    direct exSem (wMem 4 [1]) [.memset 1 1 4 7, .aggregate 2 8 [.val 0 1 4, .lit 4 4 9]]
        [⟨2, 4, 8⟩] =
      some [some (4, [some 7, some 0, some 0, some 0, some 9, some 0, some 0, some 0])] ∧
    wOutcome 4 1 [.memset 1 1 4 7, .aggregate 2 8 [.val 0 1 4, .lit 4 4 9]] [⟨2, 4, 8⟩] 1 [1] =
      .values [some (4, [none, none, none, none, some 9, some 0, some 0, some 0])] := by decide

/-- A reduction of blocks with 2 elements, recorded with 2 elements: the replay with 4
elements reduces the whole array. -/
theorem C62_block_size_counterexample :
    direct exSem (wMem 4 [1, 2, 3, 4]) [.blockReduce 4 0 4 2 0 1] [⟨1, 4, 2⟩] =
      some [some (4, [some 1, some 2])] ∧
    wOutcome 4 2 [.blockReduce 4 0 2 2 0 1] [⟨1, 4, 1⟩] 4 [1, 2, 3, 4] =
      .values [some (4, [some 1])] := by decide

/-- A copy of the first element of an array: the replay copies all elements, even when it has
the same argument. -/
theorem C62_partial_copy_counterexample :
    direct exSem (wMem 4 [1, 2]) [.memcpy 1 0 1] [⟨1, 4, 1⟩] = some [some (4, [some 1])] ∧
    wOutcome 4 2 [.memcpy 1 0 1] [⟨1, 4, 1⟩] 2 [1, 2] = .values [some (4, [some 1, some 2])] := by
  decide

/-- A synchronous copy is not recorded. -/
theorem C62_sync_copy_counterexample :
    direct exSem (wMem 4 [5]) [.memset 1 1 1 7, .memcpySync 1 0 1] [⟨1, 4, 1⟩] =
      some [some (4, [some 5])] ∧
    wOutcome 4 1 [.memset 1 1 1 7, .memcpySync 1 0 1] [⟨1, 4, 1⟩] 1 [5] =
      .values [some (4, [some 7])] := by decide

/-- A kernel that stores a local array (2 values per thread): the replay allocates memory for
one value per thread. -/
theorem C62_local_array_counterexample :
    direct exSem (wMem 4 [1, 2]) [.launch 0 1 [⟨.pointer, 0, 4, 2, 1⟩, ⟨.output, 1, 4, 0, 2⟩]]
        [⟨1, 4, 2⟩] =
      some [some (4, [some 2, some 1])] ∧
    wOutcome 4 2 [.launch 0 1 [⟨.pointer, 0, 4, 2, 1⟩, ⟨.output, 1, 4, 0, 2⟩]] [⟨1, 4, 2⟩] 2 [1, 2] =
      .values [some (4, [some 2])] := by decide

/-- A number of 8 bytes in a parameter block that equals the address of an array: the
replay stores the address of an array of the replay. -/
theorem C62_number_counterexample :
    (direct exSem (wMem 4 [1]) [.aggregate 1 8 [.lit 0 8 100]] [⟨1, 4, 8⟩] =
      some [some (4, some 100 :: List.replicate 7 (some 0))]) ∧
    wOutcome 4 1 [.aggregate 1 8 [.lit 0 8 100]] [⟨1, 4, 8⟩] 1 [1] =
      .values [some (4, List.replicate 8 none)] := by decide

/-- An output that is not known to the recorder is missing in the recording, so that
the following outputs take the wrong places: the function returns the array 9, which is no
argument, and its argument. -/
theorem C62_untracked_output_counterexample :
    outcome exSem wAddr [9] [⟨0, 4, 1⟩] [] [⟨9, 4, 1⟩, ⟨0, 4, 1⟩] [⟨4, 1, 50⟩]
      (fun a => if a = 50 then some [.byte 1] else none) 60 =
    .values [some (4, [some 1])] := by decide

/-- The size of an argument with more than 4 GiB is computed modulo 2^32. -/
theorem C62_large_argument_counterexample :
    (initSlot ⟨15, 2 ^ 29 + 1, 50⟩).size 8 = some 1 := by decide

end Verif.Freeze
