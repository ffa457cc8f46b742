# Formal model of drjit-core: design

The model is written in Lean 4 (core plus single Mathlib modules).  It lives in
`lean/Verif/`.  Each C++ function is transcribed as a Lean function (file and line
citations are in the comments of the definitions).  C++ undefined behaviour is
modelled as a distinct outcome, 32/64-bit arithmetic is modelled either on `BitVec`
or on `Nat` with an explicit `% 2^n`, exceptions are modelled as `Except`/`Option`
results.  Pointers are opaque numbers.

## Trusted base

* Lean's kernel (4.33.0) and the three standard axioms `propext`,
  `Classical.choice`, `Quot.sound`.  No axioms are added, no `sorry`, no
  `native_decide`, no `bv_decide`.
* The transcription of the C++ text into Lean definitions (checked by reading, and
  by the mutation log in `seeded/LOG.jsonl` which tests that the theorems are not
  vacuous).
* Not modelled: PTX/LLVM IR text generation, the LLVM/CUDA/Metal back ends proper,
  OptiX, cooperative vectors, the hash tables (`tsl::robin_map` is a mathematical
  map), `nanothread` (a parallel-for runs every task index exactly once), floating
  point rounding except where stated.

## Plan per property

| Id | What is modelled | How it is proved |
|----|------------------|------------------|
| C01, C02 | registry state (reverse map, domains with forward map, bound, free slots) and its operations | invariant by induction over operation lists |
| C03 | `FreeSlots` word array + cursor + count | refinement to a finite set |
| C04, C06, C07 | allocator state machine (used map, free lists, deferred lists, counters) with nondeterministic backend allocation | invariant by induction over operation lists |
| C05 | `round_pow2`, rounding in `jitc_malloc`, `AllocInfo` | arithmetic lemmas for all inputs |
| C08, C09 | threads as programs over atomic steps of `lock.h`/`log.cpp` | invariant over an arbitrary interleaving (transition relation) |
| C10-C13 | simplification rules of `op.cpp` on symbolic operands over `BitVec w` | case analysis, `BitVec` lemmas for all widths |
| C14 | IEEE comparison on bit patterns | negation proved with a witness where code is wrong, partial theorem otherwise |
| C15-C17 | variable table, LVN map, reference counts, free worklist, generation counters | invariants by induction over operation lists |
| C18 | `jitc_compact_scopes` on a list of scopes | order-embedding proof |
| C55 | attributes of operands before/after an API call in the variable-table model | counterexample for `resize`, `_partial` for the rest |
| C56 | `jitc_malloc_migrate` over the allocator state; contents of memory are not modelled | case analysis over the backend pair from the allocator invariant |
| C19, C54 | DFS with generation stamps over an arbitrary DAG | well-founded induction |
| C20, C49 | bucket sort / stable sort | permutation + sortedness + stability |
| C21 | launch partition on `Nat` mod 2^32 | arithmetic |
| C22, C23, C27 | multi-level chunked reductions | induction on recursion and on chunks |
| C24-C26 | boolean padding, compress, counting sort | list induction |
| C28 | `jit_batched_gemm` on the LLVM backend: removal and folding of batch dimensions, packing, tiles, segments, and all interleavings of the tasks | a product is specified by index formulas and an order of summation; each fold yields the same terms in the same order, so results are equal bit by bit for any arithmetic; loop invariants for the kernels, disjoint writes of tasks |
| C29-C32 | string buffer and formatters | `omega`/`Nat` digits arguments, refinement to byte lists |
| C33 | magic divisor | number theory |
| C34, C35 | call data layout, packed entries | invariants over the slot list |
| C36-C38 | file system with inodes, crash points, sweeps, parser | invariant over all interleavings |
| C39 | bit-level conversion with a rational-valued float model | case analysis on exponent ranges |
| C40 | expression DAG semantics, reindexing | structural induction |
| C41 | recording of programs with nested loops and conditionals (elimination of loop variables, second recording, sizes, literals, value numbering), values of the variables in one lane and in the lanes of an LLVM packet, back edge of CUDA and Metal loops | induction over programs and iterations: recorded variables have the values of the program for all settings; packets agree with lanes by an invariant of recorded loops; partial: no side effects, types, schedules |
| C42 | `jitc_var_cond_end`, as part of the model of C41 | outputs have the selected value; counterexample for wide branches of a narrow condition |
| C43 | local arrays: calls, the state machine for copies, allocation of local memory and the code of a kernel in one thread | refinement: meanings of calls as values, invariant over histories and over the variables of a kernel; partial, with counterexamples |
| C44 | mask stack | induction over operations |
| C46 | `jitc_var_tile`, `jitc_var_repeat`, `jitc_var_reverse` over the model of gathers | index arithmetic; contract of gathers |
| C45 | literal reductions (`Verif/Reduce`) | Hoare logic of the variable model, arithmetic; the specification is shared with C22 and C23 |
| C47 | argument passing of the API wrapper | decision logic |
| C48 | programs of calls (literals, inputs, operations, gathers, scatters, writes, references, evaluations, reads) over variables that share memory, with reference counts, pending writes and evaluations whose steps are interleaved arbitrarily | simulation: the arrays of the references are those of a specification in which arrays are values; programs outside the stated restrictions are counterexamples |
| C50 | memset/aggregate on a byte memory | induction |
| C51 | `fmix32` | explicit inverse on `BitVec 32` |
| C52 | bucketing on top of C26, cache | composition; invariant over histories; counterexample |
| C60 | dispatch loop as a well-founded recursion | induction over the pending lanes |
| C61 | `jitc_eval_impl` over the store of `Ops`, built from the traversal and grouping of `Eval` | invariant of the store under evaluation, and carrying of `Entry` derivations across it |
| C62 | traces of backend calls with a direct semantics (`run`); the recorder (slots, addresses, accesses, recorded sizes) and the replay (size inference, allocation, operations, outputs, release of temporaries), function by function | simulation between the direct execution of the later call and the replay, by induction over the trace: every live array is a slot, contents agree up to a renaming of addresses; programs outside the stated restrictions are counterexamples |
| C63 | `dryRun` and `replay` of the same recording (`Verif.Freeze`) | relation between the slots of a dry run and those of a replay (same sizes), preserved by every operation in both directions; every operation without dry run either cannot reject or sets the flag `requires_dry_run` |
| C64 | allocation state of the process during `replay` (blocks, slots) | invariant of the memory (`Owned`: every new block belongs to exactly one slot that is no input) over all operations, invariant of the recorder (`WellRec`: operations write to slots that are no inputs), release of temporaries; confinement to blocks that are reachable from the arguments (`Confined`) |
| C65 | the recorder with arrays that are no arguments (`ext`) | invariant `Tracks` (initialized slots belong to arguments or results); a slot without value stays so until `validate` rejects (`Bad`) |
| C66 | the generated functions `reduce_*_atomic` and `reduce_*_atomic_local` as programs of atomic instructions, any number of threads (`Verif.Atomic`) | every instruction is assigned the lanes that take effect with it (`Lin`), a rule turns this into an order of the lanes for every interleaving (`linearize`); stale loads are justified by monotonicity (`Red.Le`); `reduce_*_noconflict` as programs with plain loads and stores, independent threads (`NoConf.lean`), composed with C27 for the mode `Expand` (`Expand.lean`) |
| C67 | `jitc_llvm_render_scatter_inc` in the same language | as C66; the loop over the bits of a mask numbers the lanes of a group (`incCount_eq`) |
| C68 | `jitc_llvm_render_scatter_exch`, `jitc_llvm_render_scatter_cas` in the same language | as C66; consequences for orders of lanes by induction (`seqRun_exch`, `seqRun_cas`) |
| C69 | the generated functions `gather_*` with their shuffles, the splitting of packets, addresses with 64 bits (`Verif.Packet`) | the shuffles transpose groups of `n` lanes (`transposeN`), induction over the recursion of the generator, agreement with the pointwise specification `gathered` |
| C70 | the generated functions `scatter_*` as programs with single accesses, any number of threads; index computation incl. the mode `Expand` and the bounds check of debug mode | rules of Hoare type for single threads (`scatterRec_wp`), threads with disjoint footprints (`phase_spec`), agreement with the list of supplied values (`supplied`) |
| C71 | the analysis when a call is recorded, the selection of arguments and results, the signature and the body of each function (LLVM), on the same graphs as the traversal of C19 (`Verif.Capture`) | invariant of the analysis (`ana_spec`: visited = reachable), every variable scheduled for a function lies within it (`lev_reach`), everything it needs at depth `n` the caller needs at depth `n + 1` (`reach_shift`), then completeness of the caller's schedule |
| C72 | masks as expressions, `jitc_var_mask_apply` with the simplifications of `jitc_var_and` and `jitc_var_resize`, their value in every lane of a launch (C21), evaluation with the content of memory behind the end (`Verif.Lanes`) | invariant over all histories: masks obtained from the mask functions are false in all lanes beyond the end of every launch in which they can be used (`reachable_guarded`); lanes below the end see the elements of the mask (`value_elem`) |
| C73 | one task per matrix that copies bytes, on the interleaving semantics of `Verif.Par`, with 32 bit offsets (`Verif.CoopMat`) | `wp` of a task (loop invariants of both code paths), disjointness of the outputs, rule `phase_spec`; layouts by induction over the list of matrices |
| C74 | the generated code as loops over a scratch buffer of lane vectors, with partial reads of memory (`Verif.CoopVec`) | loop invariants (`forN_inv`): scratch holds the input, and the partial sums up to the current column |
| C75 | the generated instructions on the interleaving semantics of `Verif.Atomic` (`Verif.CoopVec.Accum`) | each component is a packet of C66 whose lanes share an entry; rule `kernel_serial`; for rounding additions a permutation of the additions of the packets |
| C76 | programs as trees, built by the modelled constructors and evaluated by the modelled code (`Verif.CoopVec.Elem`) | induction over programs, for every equivalence that the operations respect and for which the simplifications are right (`Laws`: equality for integers, equality up to the sign of zero for floats) |
| C77 | tasks and phases of `reduce_dot` over the memory of `Verif.Par`, followed by the modelled `block_reduce` (`Verif.Llvm.Dot`) | phases with disjoint accesses; result related to chains of fused multiply-adds and a bracketed sum; equality with the mathematical value for exact arithmetic |
| C78 | the map of functions, their names and numbers, and the table of pointers (`Verif.Callable`) | invariant of the map by induction over the functions; lookup by name and by number returns the code |
| C79 | the memory manager with its buffer and the heap, relocation of addresses (`Verif.Callable.Memory`) | induction over requests (exact cover of the used part of the buffer by sections and zeroed gaps) and over histories |
| C80 | arrays as triples (data, size, capacity) on a heap of blocks whose cells may be uninitialised; every access is checked (`Verif.Nano.Vector`) | refinement to lists: invariant (each array owns its block, each block is owned) preserved by every operation |
| C81 | strings on the same heap, arguments resolved in the order of the code, sizes first (`Verif.Nano.String`) | refinement to lists of characters; induction over the pieces with the capacity reserved for the remaining ones |
| C82 | launch configuration and thread indices in 32 bit arithmetic (`Verif.Cuda.Prefix`); the scan within a thread block as phases between barriers (`Verif.Par`); the exchange between thread blocks as a transition system of word-sized loads and stores (`Verif.Cuda.Look`) | window invariant of the scan; invariant of the exchange, by induction over runs; progress by construction of runs; bijection between elements and valid threads |
| C83 | `compress_small` and `compress_large` (`Verif.Cuda.Compress`): the scan within a thread block as phases between barriers, the exchange of `Verif.Cuda.Look`, stores in any order | sums over windows of threads; the invariant of the exchange; ranks of set entries are distinct |
| C84 | the launch configuration, vector loads, shuffles and shared memory of `block_reduce`, and the recursion of the host (`Verif.Cuda.Reduce`) | groups of lanes own disjoint sets of elements; chunks partition blocks; induction over the passes |
| C85 | the loop of each thread, with 32 bit indices, the reduction in shared memory as phases between barriers, and the second step of the host (`Verif.Cuda.Dot`) | elements of a thread by remainders; classes of threads modulo powers of two; composition with C84 |
| C86 | plan of the host with 16 and 32 bit arithmetic, iterations of each warp, groups of lanes with equal values, histograms, transpose kernel, collection of nonempty buckets, placement (`Verif.CudaPerm`) | invariant of the placement over an arbitrary order of the steps; elements of a histogram entry by partitioning index ranges; sortedness for the stable variant |
| C87 | choice of the tile size, copies of slabs to shared memory by each thread with bounds checks, padding and vector accesses, accumulation in registers, stores of the result (`Verif.CudaGemm`); specification and batch dimensions shared with C28 | induction over the steps of a thread block, for an arbitrary order of the stores between barriers; bijection between entries of the result and registers of threads; refinement to the specification of C28 |
| C88 | launch configurations, indices of threads with 32-bit arithmetic, the loop of `fill_64`, which may wrap around, the choice between functions of the driver and this kernel, single stores, one entry per thread (`Verif.CudaLaunch`) | arithmetic of launch configurations; permutation of the list of evaluated elements; induction over iterations; interleavings as in C50 |
| C89 | groups of lanes that execute together, lanes with the same address, butterfly and segmented reduction as state machines, atomic operations of all groups in any order; integer emulation of floating point minima and maxima on bit patterns; pairs of half precision numbers; masks (`Verif.CudaScatter`) | invariant of the segmented reduction: after k rounds, every 2^k-th lane of a class holds a bracketing of 2^k values in order; permutation of (address, value) pairs; order of bit patterns against the IEEE specification of `Verif.Ieee` |
| C90 | byte-addressed memory, division of packets into accesses, registers as bytes, packing and unpacking, decision between packets and separate operations, stores of all lanes in any order (`Verif.CudaPacket`) | the division covers the packet by aligned accesses of equal size (case analysis on the divisor); induction over accesses; stores as a permutation of a list of bytes, injectivity of addresses |
| C91 | division into textures of at most four channels, strided copies through the staging area as lists of writes of bytes, CUDA arrays as functions of slice, row and offset, results of lookups, surface stores, reference counts of texture and surface objects (`Verif.Tex`) | injectivity of addresses in the staging area and in the packed buffer; every byte of a packed buffer belongs to a texel; invariant over histories for lifetime |
| C92 | the loop that finds lanes with the same address bit by bit, hardware reduction or butterfly within a SIMD group, atomic operations in any order, aggregated and separate increments, weak compare-exchange with spurious failures (`Verif.MetalScatter`) | invariants of both loops; simulation of the butterfly by the segmented reduction of CUDA kernels (C89); permutations of lists of values |
| C93 | size and number of words of a packet, loads and stores of words as accesses to bytes, reinterpretation as vectors, separate operations (`Verif.MetalPacket`) | case distinction on element size and packet size modulo 4; executions of scatters are those of CUDA devices (C90) |
| C94 | both versions of the generated matrix-vector product, with the library function `matmul2d` as a relation (sums in unspecified order); atomic additions in any order; the state of half precision arrays between evaluations (`Verif.MetalCoop`) | loop invariant (`forN_inv`) for the scalar code; permutations of products and additions; induction over histories |
| C95 | the loops generated for local arrays on CUDA (counter and conditional branch, as an inductive relation) and Metal devices; loads and stores of evaluated arrays, with stores of all threads in any order (`Verif.GpuArr`) | loops equal folds (`C95_loop`); loop invariants; places of elements of different threads are distinct |
| C96 | the kernels that separate and combine channels, as lists of stores executed in any order, and copies between buffers and textures; lookups and writes (`Verif.MetalTex`, on top of `Verif.Tex`) | members of the lists of stores, which have distinct addresses; the specification is that of C91 |
| C97 | registers of cooperative vectors, some of which are not initialised, and functions of OptiX that take operands in registers or through local memory (`Verif.OptixCoop`) | induction over the loops that emit moves, stores and loads; the specification is a list of components |
| C98 | computation of the number of multiprocessors on 32 bit numbers, the state of threads with tokens that restore it, handles of the driver (`Verif.Green`) | arithmetic; refinement to one stack of contexts per thread by induction over histories |
| C99 | the array of variables with its capacity, free slots and reference counts, pointers that become invalid when it moves, and `jit_reorder` (`Verif.Reorder`) | induction over the values with the invariant that free slots are not referenced; counterexample for moves |
| C100 | histories of ranges with one stack per thread and the events that the profiler sees (`Verif.Profile`) | induction over the calls between beginning and end, whose balance is specified independently of the stacks |
| C101 | the `symbolic` flag that each kind of operation computes from those of its operands (`Verif.Symb`) | induction over the program; the specification is reachability of a symbolic leaf, an inductive relation that does not mention flags |
| C59 | traversal and kernels as for C19 | invariant of the traversal; counterexample |
| C53 | parameter assignment in `jitc_assemble` | induction over the schedule |

## What is modelled, by module

| Module | Code | Simplifications |
|--------|------|-----------------|
| `FreeSlots` | `src/freeslots.h` | none |
| `Registry` | `src/registry.cpp` | hash maps are functions; keys are opaque |
| `Arith` | `round_pow2`, `AllocInfo`, `jitc_divisor`, descriptor packing | none |
| `Alloc` | `src/malloc.cpp` (allocation, free, deferred free, flush, migrate, shutdown) | memory contents abstract; backend allocation is nondeterministic |
| `Lock` | `src/lock.h`, `src/log.cpp` | sequentially consistent interleavings |
| `Var` | `src/var.cpp`: variable table, reference counts, LVN, free worklist, scopes, `new_node_*` | evaluation is an abstract function constrained by a specification |
| `Ops` | `src/op.cpp`: simplification, constant folding, strength reduction | integer types exact; floating point arithmetic is a parameter, comparisons exact |
| `Ieee` | specification only: IEEE 754 decoding | none |
| `StrBuf` | `src/strbuf.{h,cpp}` in full | `vsnprintf` is given by its complete output; pointers are offsets |
| `Hash` | `src/hash.h`: `fmix32/64`, hashers, `hash_combine` | the string hash (XXH) is not modelled |
| `Half` | `include/drjit-core/half.h`: software conversions, product, negation | `float` multiplication is a parameter specified by `IsMul` (IEEE 754, nearest-even, subnormals not flushed) |
| `Cache` | `src/io.cpp`: cache size strings, sweep of the cache directory, kernel file format, `jitc_kernel_load`/`jitc_kernel_write` as small steps of concurrent processes, file names | XXH3 and LZ4 are parameters (`Codec`: lossless up to `LZ4_MAX_INPUT_SIZE`); the operating system does not crash, except for `C36_any_contents`; `strtoull` is modelled for the C locale |
| `Par` | thread pool interface used by `src/llvm_ts.cpp` (`submit_cpu`) | tasks of one submission are interleaved at the level of single memory accesses (sequentially consistent); consecutive submissions of a thread are ordered; nanothread itself is not modelled |
| `Llvm` | `src/llvm_ts.cpp`: launch geometry, `block_reduce`, `block_prefix_reduce`, `block_reduce_bool`, `compress`, `block_mkperm`, `reduce_expanded`, `memset_async`, `memcpy_async`, `poke`, `aggregate`; `src/llvm_red.h`; `jitc_var_expand`, `jitc_var_reduce_expanded`; `src/util.cpp`, `src/api.cpp` wrappers | memory is a map from (buffer, element) to values of the element type; `uint32_t` arithmetic wraps around; signed overflow in reductions wraps around; the operations are parameters (integer operations are instantiated); thread numbers passed to kernels are below the pool size (nanothread) |
| `Eval` | `src/eval.cpp`: `jitc_visit_new_gen`, `jitc_elide_scatter`, `jitc_var_traverse`, `jitc_schedule_sort`, the scheduling part of `jitc_eval_impl`, parameter assignment in `jitc_assemble`; the use of the `scratch` stamps in `src/call.cpp` | a variable is reduced to the fields that steer the traversal; `std::sort`/`std::stable_sort` are parameters with their contracts as hypotheses; the recursion bound of the model is proved sufficient, stack exhaustion is not modelled; code generation, launch and the cleanup loop are not modelled |
| `Call` | `src/call.cpp`: `jitc_call_layout_instance`, the layout in `jitc_var_call`, the reservation of slices in `jitc_var_call_assemble` and `jitc_var_call_getter_assemble`, `jitc_call_upload`, `jitc_var_call_reduce` and its cache; `src/llvm_packet.cpp`: `jitc_llvm_render_call_data`; `src/cuda_eval.cpp`: vector loads of captured values; `src/llvm_eval.cpp`: dispatch loop of `jitc_var_call_assemble_llvm` | byte counts are natural numbers (buffers below 2^32 bytes); LLVM instructions are modelled by the values they compute; the traversal that collects the captured values, optimisations of `jitc_var_call` and the code of the callables are not modelled |
| `Gather` | `src/var.cpp`: `jitc_var_mask_default`, `jitc_var_mask_apply`, `jitc_var_mask_push`, `jitc_var_mask_pop`, `jitc_var_mask_peek`, `jitc_var_tile`, `jitc_var_repeat`, `jitc_var_reverse`; `src/api.cpp`: `jit_eval_scope_enter`, `jit_eval_scope_leave`; `src/op.cpp`: `jitc_var_reindex`, `jitc_scatter_gather_index`, `jitc_var_gather` | `Ref` objects are explicit reference count operations; evaluation, allocation and callbacks are parameters; loop state variables, `JitFlag::Debug` and freezing are not modelled |
| `Reduce` | `src/var.cpp`: `jitc_reduce_scalar_add`, `jitc_reduce_scalar_mul`, `jitc_reduce_identity`, the paths of `jitc_var_block_reduce`, `jitc_var_reduce` and `jitc_var_block_prefix_reduce` for literals | integer types; `std::pow` is a parameter; the paths for other variables are a parameter |
| `Gemm` | `src/util.cpp`: `jitc_batched_gemm`; `src/util.h`: `jitc_gemm_batch_counts`; `src/llvm_ts.cpp`: `LLVMThreadState::batched_gemm`; `src/llvm_gemm.h`: `pack_a`, `pack_b`, `gemm_micro`, `gemm_row_sweep`, `gemm_reduce_decode` | fused or unfused multiplication is a parameter; vector registers are represented by their lanes; memory consists of elements (no byte offsets); `size_t` arithmetic does not wrap around; the other backends are not modelled |
| `LocalArr` | `src/array.cpp`: `jitc_array_create`, `jitc_array_init`, `jitc_array_read`, `jitc_array_write`, `jitc_array_buffer`, `jitc_process_array_op`; `src/llvm_array.cpp`, `src/cuda_array.cpp` (memory of arrays, initialisation, write, read, load and store of evaluated arrays); `src/llvm_eval.cpp`: order of the code of a kernel; `src/eval.cpp`: size check of `jitc_assemble`, outputs | one thread of the program; schedules are any that satisfy the order of `jitc_eval_impl` (`Sched`); element types are numbers; `ArraySelect`, `ArrayPhi` (conditionals, loops) and runtime bounds checks are not modelled; masks are the given ones (no mask stack) |
| `Ctrl` | `src/loop.cpp`: `jitc_var_loop_start`, `jitc_var_loop_cond`, `jitc_var_loop_end`; `src/cond.cpp`: `jitc_var_cond_start`, `jitc_var_cond_append`, `jitc_var_cond_end`; `src/op.cpp`: `jitc_var_select`, size rules and constant propagation of operations; `src/var.cpp`: `jitc_var_resize`, value numbering in `jitc_var_new`; `src/llvm_eval.cpp`: loops and conditionals of packets; `src/cuda_eval.cpp`: `jitc_cuda_render_loop_end`; `src/metal_eval.cpp`: `LoopEnd` | values are numbers without types; operations are arbitrary functions of the operands of a lane; no side effects, dirty variables, local arrays, calls, masks other than the program's own; value numbering and simplifications are any that are sound (`CfgOK`); the order of the code within a kernel is not modelled: the value of a variable is computed on demand |
| `Scatter` | `src/op.cpp`: `jitc_var_scatter`, `jitc_var_infer_reduce_mode` (choice of `Expand`), `jitc_var_gather`; `src/var.cpp`: `jitc_var_pointer`, `jitc_var_new`, `jitc_var_new_node_1` to `_4` (pending writes of operands), `jitc_var_data`, `jitc_var_eval`, `jitc_var_eval_force`, `jitc_var_copy`, `jitc_var_expand`, `jitc_var_reduce_expanded`, `jitc_var_write`, `jitc_var_read`, `jitc_var_shrink`, `jitc_var_stash_ref`, `jitc_var_unstash_ref`; `src/eval.cpp`: effect of an evaluation on memory and on the variables | all entries are 32 bit integers; operations are arbitrary functions of the entries of a lane; variables are named once and memory is not reused (see `Var`, `Alloc`); no symbolic scopes, mask stack or freezing; the order in which lanes write is a parameter of each scatter; the layout of expanded arrays is not modelled, only that a scatter may miss the reduction |
| `Freeze` | `src/record_ts.cpp`, `src/record_ts.h`: `record_*` and `replay_*` for launches, fills, copies, compression, permutations, block, prefix and boolean reductions, dot products, matrix products, parameter blocks, opaque widths and undefined arrays, `notify_free`, `add_variable`, `get_variable`, `add_param`, `add_input`, `add_output`, `ReplayVariable`, `Recording::replay` (with and without dry run), `Recording::validate`, `jitc_freeze_start`, `jitc_freeze_stop`, `jitc_freeze_replay`, `jitc_freeze_dry_run` | kernels and the other backend calls are arbitrary functions (parameter `Sem`); exceptions while recording are only noted; pauses, `record_expand` / `reduce_expanded` / narrowing, OptiX, textures, resource handles, profiling, the kernel history and the kernel cache check are not modelled; memory blocks are not rounded up |
| `Atomic` | `src/llvm_scatter.cpp`: LLVM code of scatter-reductions (`Direct`, `Local`, `NoConflicts`, `Expand`), increments, exchanges, compare-exchanges; `jitc_reduce_identity` | memory consists of whole elements; instructions `atomicrmw`, `cmpxchg` act on the latest value, relaxed loads may return any earlier value; the semantics of the LLVM instructions is trusted; floats only for sums in mode `Direct`; vector width 32 (for which the code emits an invalid `zext i32 to i32`) is treated like the others |
| `Packet` | `src/llvm_packet.cpp`: LLVM code of packet gathers and scatters (permutations, recursive splitting, partial packets); `src/op.cpp`: `jitc_var_gather_packet`, `jitc_var_scatter_packet` (LLVM) | memory consists of whole elements, a misaligned vector access is an access to a special location / undefined behaviour; vector widths are powers of two; the semantics of `shufflevector`, `getelementptr`, `load`, `store` is trusted; the fallback to separate operations and the other backends are not modelled |
| `Capture` | `src/call.cpp`: `jitc_var_call_analyze`, `jitc_call_bind_slots`, `jitc_call_slot_rel_offset`, the selection of inputs and outputs in `jitc_var_call_assemble`; `src/llvm_eval.cpp`: signature and references of `jitc_llvm_assemble_func` | the graph does not change between the recording step and the evaluation; reference counts are given (`Counted`, `CallerOk.counted`); byte offsets of slots and parameters, the sort by size, and the other backends are not modelled; a nested call writes arbitrary values to `param_offset` of variables outside of the schedule |
| `Lanes` | `src/var.cpp`: `jitc_var_mask_default`, `jitc_var_mask_apply`, `jitc_var_resize`; `src/op.cpp`: `jitc_var_and` for masks; `src/llvm_eval.cpp`: counters, default masks, loads and stores of masks | boolean variables are trees, hence value numbering, the case that both operands are the same variable, and reference counts (`Cfg.sole`) are abstracted; symbolic calls and loops, where masks are parameters, are not included |
| `CoopMat` | `src/llvm_ts.cpp`: `coop_vec_pack`; `src/coop_vec.cpp`: `jitc_coop_vec_compute_layout` (LLVM) | input and output are different variables; `memcpy` copies byte by byte; element types are represented by their size; the OptiX and Metal versions are not modelled |
| `CoopVec` (matvec) | `src/llvm_coop_vec.cpp`: `CoopVecMatVec`; `src/coop_vec.cpp`: checks of `jitc_coop_vec_matvec` | memory is divided into elements; the loops of basic blocks are loops over the same counters; checks of types and backends are not modelled; constants `i32 $u` are taken modulo 2^32; PTX (OptiX) and Metal code is not modelled |
| `CoopVec` (accumulation) | `src/llvm_coop_vec.cpp`: `jitc_llvm_render_coop_vec_accum`, `jitc_llvm_render_coop_vec_outer_product_accum` | targets of the lanes lie in one region of memory; the loops of basic blocks are lists of instructions; `llvm.vector.reduce.fadd` is sequential, as specified by LLVM for calls without fast-math flags |
| `CoopVec` (element-wise) | `src/coop_vec.cpp`: pack, unpack, literal, load, binary and ternary operations; `src/llvm_coop_vec.cpp:181-310`; `jitc_var_resize` for cooperative vectors | variables are trees; no value numbering, no types; the operations of the number type are parameters; unary operations and float conversions are not modelled |
| `Llvm` (dot products) | `src/llvm_ts.cpp:479-519`, `src/llvm_red.h:227-240` | the arithmetic of the element type is a parameter; allocation of the temporary buffer is a fresh buffer |
| `Callable` | `src/eval.cpp:1305-1336`, `src/llvm_eval.cpp:231-242`, `jitc_llvm_*_compile`, `src/llvm_core.cpp:498-540` | code is an opaque value; the hash is a parameter; globals that are not functions are left out; LLVM is assumed to reject modules that define a name twice and to resolve names |
| `Callable.Memory` | `src/llvm_memmgr.cpp`, `src/llvm_core.cpp:514-540`, offsets of `src/io.cpp:393-400, 484-486` | addresses are natural numbers without overflow; the detection of `.got` sections and Windows are left out; that the code is position independent is assumed |
| `Nano` | `include/drjit-core/nanostl.h`: `vector` (97-275), `string` (389-562) | sizes are natural numbers; memory allocation succeeds; elements have no constructors that fail; formatters of numbers are texts with an upper bound on their size (`unique_ptr`, `tuple`, `optional` are not modelled) |
| `Cuda` (prefix) | `resources/block_prefix_reduce.cuh` (33-243), `resources/common.h` (93-254), `src/cuda_ts.cpp` (530-680) | loads and stores of words are atomic and take effect in program order; `__any_sync`, `__ballot_sync` and shuffles act on all 32 lanes; values are an arbitrary type with an arbitrary operation; the barrier within the exclusive branch joins the threads that reach it; lookup of kernels by name is not modelled |
| `Cuda` (compress) | `resources/compress.cuh` (23-157), `src/cuda_ts.cpp` (683-763) | as for `Cuda` (prefix); the order of kernels on a stream is assumed; `compress_large_init` is modelled by its result |
| `Cuda` (reduce) | `resources/block_reduce.cuh` (93-219), `resources/common.h` (259-284), `src/cuda_ts.cpp` (195-352) | warps execute shuffles in lockstep; unwritten shared memory holds arbitrary values; the lookup of kernels is not modelled |
| `Cuda` (dot) | `resources/reduce_2.cuh` (12-76), `src/cuda_ts.cpp` (354-397) | as for `Cuda` (reduce); within a phase, accesses to shared memory are interleaved arbitrarily |
| `CudaPerm` | `resources/mkperm.cuh`, `src/cuda_ts.cpp` (764-975), `src/internal.h` (563-615) | the prefix sum between the phases is given by its result (C82); the update of a histogram by a leader and the stores of its group of lanes are one step; histogram entries are unbounded numbers (they are at most the number of elements); the memory operations of a warp before a `__ballot_sync` are visible to the warp after it (the stable variant has no `__syncwarp` in phase 4), and shifts by 32 give zero (`peers << (32 - lane_idx)` for lane 0) |
| `CudaGemm` | `resources/gemm.cuh`, `src/cuda_ts.cpp` (400-526), `src/util.cpp` (69-151) | the operands do not overlap the result (`__restrict__`) and do not change; the arithmetic of elements is arbitrary; offsets computed as `size_t` do not wrap around; base addresses are aligned; compilation of the kernels is represented by which tile sizes are available; shared memory bank conflicts and loop unrolling have no counterpart |
| `CudaLaunch` | `src/internal.h` (563-615), `src/cuda_ts.cpp` (48-182, 977-1026), `src/cuda_eval.cpp` (126-149), `src/optix_core.cpp` (486-511), `resources/misc.cuh` | functions of the CUDA driver behave as documented; of launches with OptiX, only the division into smaller launches; events and the kernel history are not modelled |
| `CudaScatter` | `src/cuda_scatter.cpp` (25-445), `src/cuda_packet.cpp` (169-327) | PTX instructions behave as documented; the instruction that combines values within a warp and the atomic one are the same operation (they differ for NaNs, see findings); vector atomics are atomic for each entry; reductions of half precision minima and maxima are treated like other types; non-atomic scatters (mode `Permute`, `NoConflicts`) and the Metal backend are not part of this model |
| `CudaPacket` | `src/cuda_packet.cpp` (18-166, 328-441), `src/cuda_scatter.cpp` (25-59), `src/cuda_eval.cpp` (1090-1122), `src/op.cpp` (2258-2380, 3088-3318), `src/var.cpp` (1812-1816) | conditions of `jitc_var_gather_packet` that involve neither packet size nor alignment are an arbitrary boolean; evaluation of sources, copies of targets and the debug mode are not part of this model; memory is a function of addresses without bounds; PTX instructions behave as documented |
| `Tex` | `src/tex.h` (21-63), `src/cuda_tex.cpp` (46-84, 147-236, 268-412, 467-716, 948-985), `src/cuda_eval.cpp` (1180-1343) | copies and surface stores of the CUDA driver behave as documented; filtering and addressing are done by the hardware; conversion of values to the format of a texture is a parameter; textures that wrap OpenGL textures and the Metal backend are not modelled |
| `MetalScatter` | `src/metal_scatter.cpp` (23-317), `src/metal_packet.cpp` (93-110) | SIMD groups have 32 lanes and lane numbers are thread numbers modulo 32; hardware reductions combine the values of active lanes in any order; pointers do not wrap around |
| `MetalPacket` | `src/metal_packet.cpp` (18-91, 112-170), `src/metal_eval.cpp` (722-735), `src/metal_scatter.cpp` (194-213), `src/op.cpp` (2258-2380, 3088-3318) | pointers do not wrap around; words are accessed byte by byte (stores of different lanes may be interleaved) |
| `MetalCoop` | `src/metal_coop_vec.cpp` (157-281, 292-350), `src/var.cpp` (2965-3036), the parts of `src/op.cpp` (2989-3030) and `src/coop_vec.cpp` (18-28, 625-640) that concern half precision targets | 32 bit index arithmetic wraps around for all constants; `matmul2d` behaves as the comments of the code say; sizes of targets, roll-backs after exceptions and recorded functions are not modelled; element-wise operations are not modelled |
| `GpuArr` | `src/cuda_array.cpp` (26-180), `src/metal_array.cpp` (27-125), the parts of `src/cuda_eval.cpp` (188-222) and `src/metal_eval.cpp` (331-354) that load and store evaluated arrays | elements are not divided into bytes; the choice of buffers is that of `LocalArr`; `selp` is assumed to exist for all types (PTX has no version for 8 bit types) |
| `MetalTex` | `src/metal_tex.mm` (173-179, 298-299, 402-541, 637-673, 700-767), `resources/metal_kernels.metal` (364-392), `src/metal_eval.cpp` (1054-1174, lookups and writes) | copies between buffers and textures (`copyFromBuffer`, `copyFromTexture`) behave as documented, rows need not be aligned; filtering, addressing and conversion of formats is left to the hardware |
| `OptixCoop` | `src/optix_coop_vec.cpp` (63-108, 114-225, 227-494) | the functions of OptiX are arbitrary functions of the first components; types, layouts, strides and pointers are part of them; a conversion between registers and element types keeps the bits of the element |
| `Green` | `src/cuda_green.cpp` (7-31, 45-65, 83-117, 137-201), `src/common.h` (108-115) | functions of the driver succeed, except that a null handle cannot be destroyed; kernels in different contexts are not ordered by the code, and the order of their effects is not modelled |
| `Reorder` | `src/reorder.cpp` (7-81), `src/var.cpp` (514-518, 572-584, 781-795, 1157-1162, 1198-1255) | values are distinct; evaluation does not move the array of variables; accesses through an invalid pointer have no effect on variables; contents are not modelled |
| `Profile` | `src/profile.cpp` (28-58, 107-115, 142-150; macOS) | identifiers of logs and intervals are unique; NVTX is not modelled |
| `Symb` | the `symbolic` flag in `src/op.cpp`, `src/var.cpp`, `src/array.cpp` (186, 338) and `src/coop_vec.cpp` (71-78, 130-134, 180, 202, 243, 296, 354, 561) | operations are reduced to their operands; accumulation into buffers, loops and calls are not modelled here |
| `Jit` | `src/eval.cpp`: `jitc_eval_impl`, `jitc_elide_scatter`, the traversal of `jitc_var_traverse` for variables with at most four operands; `src/var.cpp`: `jitc_var_eval` | code generation, compilation and kernel execution are the parameter `launch`; locks, streams, `jitc_flush`, freezing, OptiX and extra operands (packets, loops, calls) are not modelled |

## Findings

Places where the code as written does not have the property one would expect.  Each has
a theorem with a concrete witness, and the property is claimed only in the form that holds.

* `new_node_3/4` re-check the wrong operand after evaluating a dirty input (C15/C16).
* `jitc_malloc` counts allocations that fail (C06); `jitc_malloc_migrate(move)` misses the watermark (C06).
* `jitc_registry_shutdown` leaves a stale reverse map (C01).
* `jitc_var_neq(x, x)` folds to false, and LLVM's `fcmp one` disagrees with `!=`, for NaN (C14).
* `x / x` folds to 1 also for `x = 0` (C10); folding of signed overflow, shifts beyond the width, products of
  `uint16_t` is undefined behaviour in C++ (C11).
* `jitc_compact_scopes` invalidates scope numbers held by users (C18).
* `aligned_malloc` failure (`MAP_FAILED`) is not recognized; requests beyond 2^63 bytes wrap (C05).
* `jitc_malloc_migrate` leaks its staging area on failure (C56).
* Log messages may be delivered out of order (C09).
* `jitc_var_resize` changes an operand in place (C55).
* `StringBuffer::put_u32/u64/x32/x64` and `delete_trailing_commas` leave the string
  unterminated (C31): `put_u32(5)` after `clear()` reads as `55…`.
* `jitc_parse_size` accepts a negative number after white space: `" -5"` is a limit of 2^64 - 5 bytes (C38).
* The time stamp of the cache sweep is tested and updated in two steps, so that two processes may sweep at the
  same time, contrary to the comment in the code (C58).
* Temporary files that a crashed process leaves in the cache directory are neither removed nor counted by the
  sweep (C37, `C37_tmp_ignored`).
* Launches of the LLVM backend with a size close to 2^32 compute a number of packets of zero and do nothing (C21,
  `C21_overflow`).
* `jit_reduce` (any reduction to a single value) of more than 2^31 elements computes a block count of zero and
  divides by it (C22, `C22_more_than_half`).
* Inclusive prefix reductions with `block_size == 1` compute the number of bytes to be copied with 32 bits (C23,
  `C23_copy_wraps`).
* `jit_block_prefix_reduce` passes `block_size` and `size` in the wrong order; every call with more than one block
  raises an exception (C47, `C47_swapped`).
* `jit_all`, `jit_any` of an empty array read uninitialized memory (C24, `C24_empty_wrong`).
* `jit_compress` of more than 2^32 - 16384 entries does nothing and returns uninitialized memory (C25, `C25_huge`).
* `jit_block_mkperm` reads beyond the end of the array if the last group is incomplete (C26,
  `C26_partial_group_unsafe`).
* `jitc_var_expand` computes the number of bytes to be copied with 32 bits (C27, `C27_copy_wraps`); the expansion
  factor is recomputed from the current thread count when collapsing, so that changing the thread count in between
  loses updates (C27, `C27_thread_count_changed`).
* `jit_aggregate` with more than 2^32 - 16384 entries does nothing (C50, `C50_aggregate_huge`).  The comment in
  `jit.h:2436` has the meaning of the sign of an entry's size the wrong way round.
* The size stashed in the `scratch` field of a literal call input (`src/var.cpp:1088`) can coincide with a visit
  stamp, in which case `jitc_var_call_analyze` skips the variable (C54, `C54_stashed_size_fails`).
* `jit_var_scatter_inc/exch/cas` do not flush pending scatters to the same array.  If their result is requested in the
  same evaluation, they are executed before scatters that precede them in the program (C49, `C49_result_overtakes`).
* The result of a scalar `jit_var_scatter_inc/exch/cas` that is used in a computation of another size is computed by
  two kernels of the same evaluation, i.e., the atomic operation is executed more than once.  The check that raises an
  exception for later evaluations comes too early to notice (C59, `C59_two_kernels`).
* `jit_llvm_set_target` accepts any vector width.  For a width that is not a power of two, packet loads of captured
  values are not aligned to the alignment that the generated code claims (C34, `C34_odd_width`).
* A call or getter node can be assembled more than once per kernel (a scalar one that has not been evaluated and is used
  by two callables).  The later assembly overwrites `offset_base` or `header_offset`, and the table used by the code
  emitted first is never written (C35, `C35_twice`).
* The cache of `jit_var_call_reduce` is keyed by the variable index only.  It is not invalidated when the array is
  changed in place (`jit_var_write`, scatters), and it ignores domain and variant (C52, `C52_stale`).
* `jit_eval_scope_enter` returns the scope as a token and `jit_eval_scope_leave` does nothing for token 0.  In a symbolic
  region whose scope is 0 (after `jit_set_scope(0)`) the mask that was pushed is never removed and tracing stays disabled
  (C44, `C44_zero_scope_counterexample`).
* **Leak of side effects** (C61, `C61_lost_reference`).  `jitc_eval_impl` decides twice whether the target of a scatter is
  still needed: when it collects the side effects (and then it releases the reference), and in `jitc_var_traverse` (and then
  it does not).  Between the two, a later side effect can be dropped that was the last reader of the target.  Then the
  first scatter is dropped without releasing it, and it and its target stay in use forever.  The public scatter functions
  copy a target that has other users, so the case needs a stashed or borrowed target.
* A variable that is marked as side effect twice loses a reference (`C61_marked_twice`).
* A failed evaluation drops pending writes without notice: the queue is empty and the array no longer counts as dirty.
* A variable marked as side effect that the caller still references has lost its operands after evaluation.  The flag
  `side_effect` stays set on elided variables and after a failure.
* The root of an elided scatter keeps `output_flag`; `jitc_elide_scatter` reports "eliding" in the log even when it keeps the scatter.
* **Masked lanes of a gather may divide by zero** (C40, `C40_masked_division`).  `gather(100 / gather(x, i), j, mask)` is
  rebuilt as `(100 / gather(x, j, mask)) & mask`.  In lanes whose mask is not set the inner gather returns zero, so an integer
  division by zero is executed that the program does not contain.  (On the CPU backend, an integer division by zero is undefined in LLVM IR.)
* Gathers from an unevaluated result of `jit_var_scatter_inc` (`jitc_var_reindex`): the node is returned as is or duplicated;
  a duplicate would increment the counter twice.
* `jitc_var_reindex` copies kind, backend, type, size and literal of a node, but not `is_array`, `array_length` and `coop_vec`.
* The mask stack is not applied when a gather returns the source itself (identity index) or a single entry of an evaluated array.
* `jit_var_mask_push` does not check that the mask is a boolean.  An index of type `float` is accepted (and converted)
  if the source is rebuilt, and rejected otherwise.  64 bit indices are truncated to 32 bits.
* **Tiling or repeating zero times raises an exception** (C46, `C46_zero_times`).  `jit_var_tile(x, 0)` and `jit_var_repeat(x, 0, n)`
  create a counter without entries and combine it with a literal; `jitc_var_check` rejects the sizes 0 and 1.
* **Reversed prefix sums of literals are wrong if the last block is not complete** (C45, `C45_reverse_incomplete_block`).  The
  position is flipped as `block_size - 1 - pos`, as if all blocks were complete: the last entry of the reversed inclusive sum of
  three ones with block size two is 2 instead of 1.
* **Exclusive prefix minima and maxima of literals are wrong** (C45, `C45_exclusive_minimum`): the literal is returned, also for the first
  entry, which should be the neutral element.
* **Products of literals use the element count converted to the element type** (C45, `C45_product_wraps`): the product of 256
  8-bit twos is 1 instead of 0.  The product is computed in double precision, so that products above 2^53 are inexact or undefined.
* **Sums of signed literals overflow** (C45, `C45_sum_overflow`): undefined at compile time, whereas the reduction kernel wraps around.
* `ceil_div(size, block_size)` wraps around if `size + block_size > 2^32`: `jit_var_block_reduce` of three entries with block
  size 2^32 - 1 raises an exception (example in `Verif/Jit/ReduceDemo.lean`).
* **Products with inner dimension zero are not initialised** (C28, `C28_inner_zero`): `jit_batched_gemm` returns before the
  launcher, which would fill the result with zeros; `jit_var_batched_gemm` returns uninitialised memory.
* **Empty reductions of matrix products are not initialised** (C28, `C28_empty_sum`), unless the strides happen to permit folding the
  dimension into K (`C28_empty_sum_folded`).
* **`jit_batched_gemm` does not return if K > 2^32 - 1024** (C28, `C28_diverges`): the 32-bit loop variable `pc` wraps around.
* The number of grid and reduction points is computed modulo 2^32 (C28, `C28_count_wraps`): a grid of 65536 × 65536 products is
  treated like an empty one.
* **Two writes to an initialised local array share its memory** (C43, `C43_init_fork`, `C43_init_read`): `jitc_process_array_op()`
  notes a conflict at the storage of the target only if the target is itself a write (array.cpp:433-437). If `b = init(a, 3)`, then
  `c = write(b, ...)` and `d = write(b, ...)` both use the memory of `a`, and `d` contains what was written to `c`.
* **An array that was created can only be initialised once** (C43, `C43_double_init`).
* **Writes to an array that is evaluated afterwards share memory** (C43, `C43_stale_storage`): the storage of a write refers to the
  storage which its target had when the write was recorded, not to the evaluated target.
* **A masked read of an array that was only initialised ignores the mask** (C43, `C43_init_masked_read`).
* **A read with a wide mask from a narrow array aborts the process when it is evaluated** (C43, `C43_masked_read_size`): the size of
  the read variable does not include that of the mask (array.cpp:184).
* **The result of a conditional has the size of the condition** (C42, `C42_scalar_condition_truncates`): `jitc_var_cond_end()` accepts
  a condition of size 1 with wider branches, and the result then has a single entry (cond.cpp:105-110, 163-172).
* **Register numbers of an earlier kernel** (C41/C42, not modelled): `reg_index` is only reset after all groups of an evaluation
  (eval.cpp:1169).  `jitc_cond_output_active()` and the copies of loop variables test `reg_index != 0`.  If a conditional or loop of
  size 1 is part of kernels of two sizes in one evaluation, outputs that are only needed by the first kernel count as active in the
  second, whose code then refers to registers that it does not define.
* **Loops within loops on LLVM** (C41): lanes that have left a loop still execute its body while other lanes continue.  A nested loop
  must therefore end in those lanes as well (`runB true` in `C41_llvm_kernels_compute_each_lane`); nothing in drjit-core adds the
  condition of the outer loop to that of the inner loop.
* **A scatter whose mask is its target** (C48, `C48_mask_is_target_counterexample`): `jitc_var_new_node_4` evaluates pending side effects
  if an operand is dirty and then checks again, but it checks the first operand for all of them (var.cpp:1300-1318; likewise
  `jitc_var_new_node_3`).  A scatter on CUDA or Metal into an array of booleans that is also its mask runs in place while it reads the mask.
* **Shrunk arrays** (C48, `C48_shrink_counterexample`, `C48_shrink_pending_counterexample`): `jitc_var_shrink` returns a variable that shares
  the memory of its argument.  Scatters into it are not copied and modify the argument; and pending writes of the argument are not seen.
* **Stashed reference counts** (C48, `C48_stash_counterexample`): references that are created between `jit_var_stash_ref` and a scatter are
  modified by the scatter.  The count is stored in 16 bits, so that 65537 references are taken for one.
* **Reductions after plain scatters** (C48, `C48_mixed_counterexample`): a reduction into a target with a pending plain scatter does not
  cause an evaluation (op.cpp:2990), and both then belong to one kernel, in which they may take place in any order.
* **Expanded arrays** (C48, `C48_expand_counterexample`, `C48_expanded_counterexample`): on LLVM, `jitc_var_expand` copies the target without
  its pending writes, which are lost.  And if the value of a second reduction has pending writes, then those are evaluated after the
  index was computed (op.cpp:2866-2889); the array is then reduced and no longer expanded, while the second reduction still writes
  to the slots of threads that are never added up.
* **Frozen functions** (C62, `Verif.Freeze.Wrong`).  `C62_replay_partial` holds for calls on whole arrays whose sizes are related as described by
  `Similar`.  Outside these conditions the replay differs from a direct execution; each case is a theorem:
  fills keep the recorded size (`C62_memset_counterexample`);
  a launch size that happened to be a multiple or a fraction of an input size is scaled (`C62_launch_size_counterexample`);
  a block size that happened to be the size of the array is replaced by the new size (`C62_block_size_counterexample`);
  a shrunk view of an argument is returned as the whole argument (`C62_shrunk_counterexample`);
  partial copies copy the whole source (`C62_partial_copy_counterexample`) and synchronous copies are not recorded (`C62_sync_copy_counterexample`);
  a fill does not tell the recorder the type of the array, so that a later compression raises (`C62_compress_filled_counterexample`) and the
  element is missing in a parameter block (`C62_aggregate_filled_counterexample`);
  an empty result of a compression raises (`C62_compress_empty_counterexample`);
  outputs that are local arrays get the memory of one value per thread (`C62_local_array_counterexample`);
  a number in a parameter block that equals an address is treated as a pointer (`C62_number_counterexample`);
  an output that is unknown to the recorder is dropped silently, because `jitc_freeze_stop` tests for exceptions before it adds the outputs
  (`C62_untracked_output_counterexample`);
  sizes of arguments in bytes are computed modulo 2^32 (`C62_large_argument_counterexample`).
  Read but not modelled: `notify_free` builds a `Free` operation that is never stored; two inputs with one data pointer share a slot;
  `replay_expand` can return false, which a replay ignores; `jitc_freeze_abort` restores the thread state before it resets the flag
  `FreezingScope`, and an exception in between leaves the flag set; calls while a recording is paused modify tracked arrays unnoticed.
* **Dry runs** (C63).  `C63_no_effects` and `C63_sizes` hold for all recordings.  `C63_accepted_partial`: after an accepting dry run, a replay can still terminate the
  process when an output is empty (`C63_empty_output_counterexample`: the copy of an empty compression).  Dot products do not require a dry run although
  sizes are only compared there, so that a replay with arrays of different sizes reads out of bounds
  (`C63_dot_counterexample`).  Every dry run rejects recordings with compressions (`C63_compress_counterexample`), so that a function with a
  compression and a reduction is recorded anew in every call.
* **Memory of replays** (C64).  An array that is returned twice is owned by two variables, which causes a double free (`C64_duplicate_counterexample`; `jit_freeze_stop` does not exclude
  this); a fill of an argument with a recorded size that exceeds the argument of the replay releases the memory of the
  argument while its variable still refers to it (`C64_overwritten_counterexample`); an exception during a replay leaks
  the memory of all temporary arrays (`C64_raise_counterexample`).
* **Captured arrays** (C65).  `record_block_mkperm` ignores arrays that are not known to the recorder instead of raising
  (`C65_permutation_counterexample`), synchronous copies are not tested (`C65_sync_copy_counterexample`), and `validate` runs at the end, so that a captured
  array in a parameter block is accepted if it is written afterwards (`C65_overwritten_counterexample`).
* **Scatter-reductions** (C66).  In the mode `Local` (the default for large arrays), lanes that are switched off get the address 0, of which only bits `shift .. shift+31` are compared: they take part in
  the reduction of an entry whose address is a multiple of `2^(32+shift)` bytes (16 GiB for 4-byte types), see `C66_local_counterexample`.  Floats that are not a number are skipped by `fcmp one`
  in this mode, so that NaNs do not propagate (`C66_local_nan_counterexample`), unlike in the mode `Direct`.
* **Exchanges** (C68).  If the mask is a literal `true` (possible if such a mask is on the mask stack), then the loop of the generated code does not test its
  end and branches to a block that does not exist (`C68_unmasked_counterexample`).
* **Expanded arrays** (C27, `C27_index_counterexample`): the width of the indices of a scatter is chosen from the size before the expansion (`jitc_scatter_gather_index` uses the size
  of the variable, which `jitc_var_expand` leaves unchanged).  If the expanded array has more than `2^31` entries (at most `2^32` are allowed), then 32-bit indices are used that `getelementptr` regards as signed:
  threads write to addresses below the array.
* **Packet gathers** (C69).  The bounds check of debug mode compares the product of index and packet size, computed with 32 bits, with the size of the array, whereas the access uses the index itself:
  index `2^31` is accepted for packets of two elements, and memory outside of the array is read (`C69_debug_counterexample`).
* **Packet scatters** (C70).  Unlike packet gathers, they do not test whether the target is aligned: arrays made from memory of the user are accessed by misaligned vector stores (`C70_unaligned_counterexample`).
  Targets of size 1 are accepted and overrun (`C70_size_one_counterexample`).  In debug mode, packet scatter-additions to expanded arrays compare the index that contains the number of the thread with the size
  before the expansion (op.cpp:3289-3295 passes `index`, which `jitc_var_infer_reduce_mode` has changed; plain scatters pass the original index): all threads but the first report errors
  and skip their operations (`C70_debug_expand_counterexample`).
* **Captured variables** (C71).  `jitc_var_call_analyze` (call.cpp:989-1096) visits the out-of-band operands of packet scatters, cooperative vectors, ray tracing and texture operations, but not the mask of
  `ScatterCAS`, which `jitc_var_traverse` does visit (eval.cpp:305-309): if the mask of a compare-exchange inside of a recorded function depends on an evaluated scalar that nothing else in the function uses,
  then `jitc_call_slot_rel_offset` aborts the process (`C71_cas_mask_counterexample`).
* **Scope of calls** (C71).  `jit_var_call()` does not open a new scope (loops and conditionals do).  If the caller does not call `jit_new_scope()` between the creation of the arguments and the call, an argument that
  only the second result needs is computed after the call to which it is passed (`C71_scope_counterexample`); the documentation of `jit_var_call()` does not mention this requirement.
* **Lanes beyond the end** (C72).  `jitc_var_mask_apply` (var.cpp:2231-2270) combines a mask with the top of the mask stack *instead of* the default mask.  If the pushed mask does not derive from the default mask (for example the literal
  `true`, or an array in memory), then operations of a size that is not a multiple of the vector width take effect in the lanes beyond the end, i.e. they write or read out of bounds (`C72_literal_counterexample`); the documentation in
  jit.h:2106-2136 does not require `jit_var_mask_apply` before `jit_var_mask_push`.  The same happens if a mask with one element is evaluated, and then used for an operation with several elements: the correction for broadcast masks in
  var.cpp:2256 tests the size of the operation, not that of the mask (`C72_scalar_counterexample`).
* **Packing matrices** (C73).  `LLVMThreadState::coop_vec_pack` (llvm_ts.cpp:1118-1133) computes byte offsets with 32 bit numbers although arrays can be larger than 4 GiB: a matrix of 32 bit numbers at offset 2^30 is
  copied to the start of the buffer (`C73_offset_counterexample`).
* **Matrix-vector products** (C74).  The LLVM code for `CoopVecMatVec` (llvm_coop_vec.cpp:430-445) uses the number of columns as the row stride and ignores `A_descr->stride`: products with padded matrices are wrong
  (`C74_stride_counterexample`; the outer product at line 150 does use the stride).  Offsets of 2^31 or more become negative (`C74_offset_counterexample`).  The number of components is a 16 bit field that is not
  checked: a product with 65536 components has none (`C74_length_counterexample`).
* **Cooperative vectors, read but not proved.**  `CoopVecCast` decides signedness with `jitc_is_float`, so signed integers are zero-extended, and casts between integers of equal size emit `trunc` (rejected by LLVM); the
  integer version of `Step` emits `icmp lt` (no such predicate); `CoopVecUnaryOp` has no case in the LLVM backend and fails; `jit_coop_vec_pack` and `jit_coop_vec_outer_product_accum` do not check that sizes are
  compatible; `jit_coop_vec_accum` emits `fadd` also for integers.
* **Accumulation of cooperative vectors** (C75).  The byte offset of the matrix of an outer product is a 32 bit number (llvm_coop_vec.cpp:73-78): with 32 bit elements and offset 2^30 the kernel adds to the matrix at
  offset 0 (`C75_outer_counterexample`).  Offsets of 2^31 elements or more become negative in accumulations (`C75_accum_counterexample`).  Outside of calls, packets without active lanes still execute the atomic
  additions (of zero), so the target must be valid even if all lanes are inactive (hypothesis `AccOK`).
* **Element-wise operations on cooperative vectors** (C76).  The code for `Bitcast` of a cooperative vector (llvm_coop_vec.cpp:269-272) has the format `$V_u` and passes the component as a `Variable *`; it is reached
  when a simplified operation resizes a shared vector of size one (`C76_shared_counterexample`).  `-0 + 0` yields `-0` since additions of a literal zero of either sign are removed (`C76_zero_counterexample`).  Minima
  and maxima are `call fast`, whose result is poison for NaN and infinite arguments, although the comment above says that NaNs are ignored (`C76_nan_counterexample`); on integers, LLVM rejects the flag `fast`.  Packing
  variables of different sizes is accepted and reads beyond the end (`C76_pack_counterexample`).  Lengths are truncated to 16 bits by literals and loads (`C76_length_counterexample`).  Conversions extend signed integers
  without sign and emit an invalid `trunc` between types of the same size (`C76_cast_counterexample`); `step` on integers emits the invalid predicate `icmp lt`.
* **Dot products** (C77).  For sizes above 2^32 minus the size of a block, the number of blocks is computed as 0, and only the products of the first block are summed (`C77_size_counterexample`).
* **Names of functions** (C78).  On the LLVM backend, functions of calls with one target and functions of calls with several targets share the names `func_<hash>`, whereas the map distinguishes them by type (the CUDA
  backend uses the prefix `func_unique_` to prevent this).  A kernel in which a function is the only target of one call and one of several targets of another call defines the name twice, which terminates the process
  (`C78_merged_name_counterexample`).  With `MergeFunctions` disabled, the hash is the number of functions of calls with several targets so far, which functions of calls with one target do not increase: two different
  functions of this kind get the same name, and the second call executes the code of the first function (`C78_unmerged_counterexample`); also, a call with one target followed by a call with several targets defines a
  name twice (`C78_unmerged_name_counterexample`).
* **Memory of compiled code** (C79).  The gap before a section is zeroed before the bound is checked, so that up to `align - 1` bytes beyond the end of the buffer are overwritten when the buffer is too small
  (`C79_padding_counterexample`).  When `posix_memalign` fails, the manager keeps the address and the size of the buffer that it has just freed: later kernels are compiled into freed memory, or the buffer is freed twice
  (`C79_failure_counterexample`).
* **Arrays and strings** (C80, C81).  `v.push_back(v[0])` on a full array reads freed memory: the argument is a reference into the block that growth frees (`C80_alias_counterexample`).  `s = s` empties the string, since
  the assignment clears it before it appends (`C81_self_counterexample`).  `s += s.c_str()` reads freed memory when the string grows (`C81_cstr_counterexample`), whereas `s += s` is right.  The formatter of integers
  negates `INT_MIN`; the abort upon excessive capacity is compiled only with `NDEBUG` (not modelled).
* **Prefix reductions on CUDA devices** (C82).  The kernels `block_prefix_reduce_{min,max}_u64_*` are instantiated with `uint32_t` (block_prefix_reduce.cuh:241), so that prefix minima and maxima of 64 bit unsigned
  integers are wrong (`C82_max_u64_counterexample`).  Blocks of more than 2^31 elements, e.g. cumulative sums of such arrays, make the host divide by zero: `round_pow2` returns 0 (`C82_division_counterexample`).  With block
  size 1, the byte count of the copy is a 32 bit product: nothing is copied for 2^29 elements of 8 bytes (`C82_copy_counterexample`; the same expression is used by `LLVMThreadState`).  The `__syncthreads()` of exclusive
  reductions is inside `if (is_valid)`: when blocks do not fill their chunks, only some threads of the thread block reach it, which CUDA leaves undefined (threads that have exited are not waited for in practice; this is
  what the model assumes).
* **Compression on CUDA devices** (C83).  For masks with more than 2^32 - 2048 entries the number of thread blocks, `(size + 2047) / 2048` in 32 bit arithmetic, is zero; the driver rejects the launch (`C83_large_counterexample`).
* **Block reductions on CUDA devices** (C84).  For a single block of 33 to 64 elements the kernel reads four entries of shared memory, of which only two were requested (`C84_shared_reads_counterexample`); the values are not used.  Copies made for blocks of one element have a 32 bit number of bytes (`C84_copy_counterexample`), and block sizes above 2^31 lead to a division by zero on the host (`C84_division_counterexample`).
* **Dot products on CUDA devices** (C85).  The index of the loop is a 32 bit number that is incremented by 2048 times the number of thread blocks.  Close to 2^32 elements the increment overflows: with 2^32 - 2048 elements on a device with 128 multiprocessors, the kernel does not terminate (`C85_hang_counterexample`).  Beyond, the number of thread blocks is zero (`C85_launch_counterexample`).
* **Sorting permutations on CUDA devices** (C86).  The number of thread blocks of the transpose kernel is converted to 16 bits: with 2^20 buckets the launch fails (`C86_buckets_counterexample`), with 2^20 + 16 buckets only 16 columns are transposed (`C86_transpose_counterexample`) and the permutation is computed from uninitialised memory.  The size of the histograms is computed with 32 bits: for 65535 groups of 1024 elements and 513 buckets, about 8 MiB are allocated where 4 GiB are used (`C86_histogram_counterexample`).  The groups are the second dimension of the grid, which is limited to 65535 (`C86_groups_counterexample`).  The number of groups overflows for single groups with more than 2^31 elements (`C86_size_counterexample`).  The kernel that collects nonempty buckets has one barrier in a loop that uses shared memory; it is correct only because the loop is executed once (`C86_single_iteration`).
* **Matrix products on CUDA devices** (C87).  Tiles are chosen by the lengths of rows, but not by the strides of batch dimensions: for windows that overlap (stride 1), vector accesses are misaligned (`C87_misaligned_counterexample`), which CUDA reports as an error.  Products with more than 524280 rows are rejected if N or the length of rows is odd (`C87_tall_counterexample`); this also affects batched products whose grid points have been turned into rows (`C87_folding_counterexample`), hence folding is not transparent.  An empty grid dimension that is turned into rows leads to a launch with zero thread blocks, which CUDA does not permit (`C87_empty_grid_counterexample`); the LLVM backend tests for this case.  Indices are computed with 32 bits: operands with more than 2^32 elements are read at the wrong place (`C87_large_operand_counterexample`); this needs raw pointers, since variables are smaller.  The inner dimension is padded by terms `0 * 0`, which turns a sum of `-0` (possible after underflow) into `+0`; `C87_kernel` is exact about this.
* **Launches on CUDA devices** (C88).  For the 31 largest sizes, the number of warps wraps around to zero and CUDA refuses the launch (`C88_no_blocks_counterexample`).  Slightly below, the number of threads can exceed 2^32, and then elements at the beginning are evaluated twice (`C88_twice_counterexample`: block size 768, 2^32 - 32 elements), which is observable with atomic operations.  `jit_memset_async` with 8-byte elements never ends for more than 2^32 - 1024 elements, since the step of the loop is zero (`C88_memset_counterexample`).  `jit_aggregate` without entries is refused by CUDA, but accepted by the LLVM backend (`C88_aggregate_empty_counterexample`).
* **Atomic operations on CUDA devices** (C89).  `jit_var_scatter_cas` reports success for masked lanes that compare with zero, although nothing is stored: the register of the previous value is initialised with zero and the comparison is not masked (`C89_cas_mask_counterexample`; `jit.h:1170-1173` says otherwise).  The effect of NaNs in minima and maxima depends on their sign and on whether values are combined within a warp (`C89_nan_counterexample`).  Adding a half precision number adds +0 to its neighbour, which turns -0 into +0 (`C89_half_zero_counterexample`), and for the last element of an array of odd length accesses the two bytes behind it (`C89_half_beyond_counterexample`).
* **Packets on CUDA devices** (C90).  Whether an array is aligned is only recorded for the LLVM backend (`var.cpp:1812-1816`), while packet gathers and scatters on CUDA devices use instructions that require an alignment of up to 16 (32) bytes: packets of a mapped array that starts at another address fault (`C90_misaligned_counterexample`).  Packet scatters never test alignment on any backend.  Packet scatters are accepted for targets with a single element and write behind it (`op.cpp:3163`, `C90_single_target_counterexample`); for gathers, the same test is followed by a special case for such sources, which is missing for scatters.
* **Textures on CUDA devices** (C91).  `jit_tex_write` generates an instruction that does not exist (`sust.b.2d.b32.zero [...], {a, b, c}`) for textures whose number of channels is 3, 7, 11, ...; even with a valid instruction, its offset would be a multiple of three components, although texels are padded to four (`cuda_eval.cpp:1287, 1321`, `C91_write_three_counterexample`).  A pending write keeps the variable of the surface handle alive, but the surface is destroyed together with the texture object, so `jit_tex_write(); jit_tex_destroy(); jit_eval()` stores into a surface that has been destroyed (`cuda_tex.cpp:46-56, 641`, `C91_pending_write_counterexample`).
* **Compare-exchange on Metal devices** (C92).  `jit_var_scatter_cas` is compiled to a weak compare-exchange without a loop; it may fail although the values are equal, and then returns the expected value together with `success = false` (`metal_scatter.cpp:246`, `C92_cas_weak_counterexample`).  In addition, scatter-reductions of packets aggregate values within SIMD groups also on devices without Metal 4 support, for which this is switched off elsewhere because it "appears to be buggy" (`metal_packet.cpp:106-107` vs. `metal_scatter.cpp:211-215, 290-295`); the model does not depend on this.
* **Packets on Metal devices** (C93).  The two defects of CUDA devices (C90) are shared: arrays that are mapped are never marked as unaligned, so that words of packets can be misaligned (`var.cpp:1812-1816`, `C93_misaligned_counterexample`), and packet scatters to an array of one element write behind it (`op.cpp:3163`, `C93_single_target_counterexample`).
* **Cooperative vectors on Metal devices** (C94).  On devices with Metal 4, a product with a padded matrix (`stride != cols`) whose input length is a multiple of 16 aborts the process (`jitc_fail`, `metal_coop_vec.cpp:194-196`), although `jit_coop_vec_matvec` accepts the matrix and the code for other lengths supports it (`C94_padded_counterexample`).
* **Half precision targets on Metal devices** (C94).  Reductions accumulate in a copy of the array, which overwrites the array after the next evaluation (`var.cpp:2971-2995`).  A scatter in mode `NoConflicts` or `Permute` does not evaluate pending operations first (`op.cpp:2989-2996`): when it follows a reduction, even one that uses other entries, its values are lost (`C94_half_counterexample`).
* **Evaluated local arrays of size 1** (C95).  When an evaluated array of size 1 is used by a larger kernel, CUDA and Metal code uses the size of the kernel as the distance of elements (`cuda_array.cpp:124`, `metal_array.cpp:99-100`) and reads behind the end of the array (`C95_single_counterexample`).  The LLVM backend handles this case (`llvm_array.cpp:349`).
* **Large local arrays on Metal devices** (C95).  Positions in evaluated arrays are 32 bit numbers (`metal_array.cpp:99-100,107-108`) although `length * size` elements are allocated (`eval.cpp:476-483`): elements overwrite each other when the product exceeds 2^32 (`C95_wrap_counterexample`).
* **Large textures on Metal devices** (C96).  The number of threads that separate or combine channels is converted to 32 bits (`metal_tex.mm:437,535`): a three-dimensional texture with 1024^3 texels of three channels is not copied at all, and lookups find whatever the staging memory contained (`C96_large_counterexample`).
* **Wrapped textures with 8 bit channels on Metal devices** (C96).  `jit_tex_wrap` accepts them, but stores an element size of two bytes (`metal_tex.mm:298-299`), so that uploads and downloads use the wrong distance of rows and exceed the buffer (`C96_wrapped_counterexample`).
* **Resizing cooperative vectors in OptiX kernels** (C97).  `jitc_var_resize` creates a `Bitcast` of a cooperative vector when a vector of size one is resized that is referenced elsewhere, e.g. when a literal zero vector with more threads is added to it.  The code for it copies `reg_count` registers (`optix_coop_vec.cpp:378-382`), which is zero for vectors with more than 64 components: the result is not initialised (`C97_copy_counterexample`).
* **Requests for too many multiprocessors** (C98).  `align_up` wraps around (`common.h:108-115`, `cuda_green.cpp:60`): a request for 2^32 - 1 multiprocessors is rounded to zero, and passes the check that the device has enough of them (`C98_count_counterexample`).
* **Releasing a context with all multiprocessors** (C98).  If no multiprocessors are left, the second handle is null, but `jitc_cuda_green_context_release` destroys it unconditionally (`cuda_green.cpp:155`), which is an error of the driver, and `cuda_check` ends the program (`C98_release_counterexample`, assuming that the driver rejects null handles).
* **Invalid pointer in `jit_reorder`** (C99).  `v_reorder` is obtained ahead of the loop that creates the results (`reorder.cpp:61-80`).  When the array of variables moves (`var.cpp:788`), later iterations and the final `jitc_var_dec_ref` access freed memory: with three or more values the reordering has too few references and is freed while results depend on it (`C99_refs_counterexample`), with one value it is never freed.
* **Ranges around initialisation and shutdown on macOS** (C100).  A range that begins ahead of `jit_init` and ends after it is a fatal error when a profiler is attached (`C100_init_counterexample`).  `jit_shutdown` clears the ranges of the calling thread only, so that those of other threads are ended in the next log, where they have not begun (`C100_shutdown_counterexample`).
* **Symbolic operands that are overlooked** (C101).  Packing, unpacking and arithmetic of cooperative vectors never set the `symbolic` flag, so that a component unpacked from a vector that depends on a symbolic variable can be evaluated without an error (`C101_coop_counterexample`).  Reads of local arrays ignore the flag of the mask, and writes that of the offset (`C101_array_counterexample`).
* **Pointer kept across creation of a variable** (not modelled).  The path for literals of `jitc_var_block_reduce` (`var.cpp:2503-2507`) reads the backend and type of its operand through a pointer obtained before another variable is created, which may move the array of variables.
