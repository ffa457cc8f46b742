{
 "claims": [
  {
   "property": "C01",
   "status": "proved",
   "theorems": [
    "Verif.Registry.C01_C02_registry_refines_spec",
    "Verif.Registry.C01_live_id_resolves",
    "Verif.Registry.C01_live_ids_distinct",
    "Verif.Registry.C01_double_put_raises",
    "Verif.Registry.C01_shutdown_then_remove_is_ub"
   ],
   "note": ""
  },
  {
   "property": "C02",
   "status": "proved",
   "theorems": [
    "Verif.Registry.C01_C02_registry_refines_spec"
   ],
   "note": ""
  },
  {
   "property": "C03",
   "status": "proved",
   "theorems": [
    "Verif.FreeSlots.C03_free_slots_refine_min_set",
    "Verif.FreeSlots.C03_pop_empty_is_ub"
   ],
   "note": ""
  },
  {
   "property": "C04",
   "status": "partial",
   "theorems": [
    "Verif.Alloc.C04_live_blocks_disjoint",
    "Verif.Alloc.C04_malloc_returns_fresh_block",
    "Verif.Alloc.C04_malloc_failure_keeps_live_blocks",
    "Verif.Alloc.C04_free_unknown_raises",
    "Verif.Alloc.C04_free_live",
    "Verif.Alloc.C04_big_allocation_failure_aliases"
   ],
   "note": "Holds for every history in which the OS does not fail host requests of >= 2 MiB; without that assumption the code violates the claim (unchecked mmap result), proved by C04_big_allocation_failure_aliases."
  },
  {
   "property": "C05",
   "status": "proved",
   "theorems": [
    "Verif.Alloc.C05_capacity",
    "Verif.Alloc.C05_descriptor_lossless",
    "Verif.Alloc.C05_huge_request_wraps",
    "Verif.Arith.C05_round_pow2_least",
    "Verif.Arith.C05_round_pow2_32_least",
    "Verif.Arith.C05_round_pow2_wraps"
   ],
   "note": "Requests up to 2^52 bytes; the wrap-around beyond that is proved as a witness."
  },
  {
   "property": "C06",
   "status": "partial",
   "theorems": [
    "Verif.Alloc.C06_usage_exact",
    "Verif.Alloc.C06_allocated_ge",
    "Verif.Alloc.C06_allocated_exact_partial",
    "Verif.Alloc.C06_failed_allocation_is_counted",
    "Verif.Alloc.C06_watermark_ge_partial",
    "Verif.Alloc.C06_watermark_dominates_past_partial",
    "Verif.Alloc.C06_move_ignores_watermark"
   ],
   "note": "Usage exact for all histories. Allocated exact unless a call raised, watermark dominates unless a host/LLVM move occurred; both exceptions are real (witness theorems)."
  },
  {
   "property": "C07",
   "status": "proved",
   "theorems": [
    "Verif.Alloc.C07_free_shared_parks",
    "Verif.Alloc.C07_no_reuse_while_in_flight"
   ],
   "note": "All interleavings of allocator operations with batch submission and completion."
  },
  {
   "property": "C08",
   "status": "proved",
   "theorems": [
    "Verif.Lock.C08_mutual_exclusion",
    "Verif.Lock.C08_reentry_does_not_block",
    "Verif.Lock.C08_free_iff_balanced",
    "Verif.Lock.C08_waiting_thread_can_take_free_lock"
   ],
   "note": "Any number of threads, every interleaving, stale relaxed loads included; nesting depth < 2^63."
  },
  {
   "property": "C09",
   "status": "partial",
   "theorems": [
    "Verif.Lock.C09_not_under_lock",
    "Verif.Lock.C09_exactly_once",
    "Verif.Lock.C09_not_stranded",
    "Verif.Lock.C09_in_order_partial",
    "Verif.Lock.C09_order_violated"
   ],
   "note": "Exactly-once and not-under-lock hold for every schedule. Order holds unless delivery loops of several threads overlap; C09_order_violated proves a schedule where the code delivers out of order."
  },
  {
   "property": "C10",
   "status": "proved",
   "theorems": [
    "Verif.Ops.C10_C13_unary",
    "Verif.Ops.C10_C13_binary",
    "Verif.Ops.C10_C13_ternary"
   ],
   "note": "Partial correctness: whenever the call returns. Integer types; node meaning is that of the LLVM instruction emitted for it."
  },
  {
   "property": "C100",
   "status": "partial",
   "theorems": [
    "Verif.Profile.C100_matching_partial",
    "Verif.Profile.C100_ok_partial",
    "Verif.Profile.C100_detached",
    "Verif.Profile.C100_init_counterexample",
    "Verif.Profile.C100_shutdown_counterexample"
   ],
   "note": "Refuted for histories in which the library is initialised or shut down within ranges; proved for all others."
  },
  {
   "property": "C101",
   "status": "partial",
   "theorems": [
    "Verif.Symb.C101_sound",
    "Verif.Symb.C101_raises_partial",
    "Verif.Symb.C101_coop_counterexample",
    "Verif.Symb.C101_array_counterexample"
   ],
   "note": "No spurious errors: proved for all programs.  Errors: refuted for cooperative vectors, masks of array reads and offsets of array writes; proved for all other programs."
  },
  {
   "property": "C11",
   "status": "proved",
   "theorems": [
    "Verif.Ops.C11_fold_unary",
    "Verif.Ops.C11_fold_binary",
    "Verif.Ops.C11_fold_ternary",
    "Verif.Ops.C11_signed_overflow_ub",
    "Verif.Ops.C11_u16_mul_ub",
    "Verif.Ops.C11_neq_nan_folding_disagrees"
   ],
   "note": "Integer and boolean literals (floating point literals for comparisons, masks and bit casts). Witnesses show literal operands for which folding has undefined behaviour, and that neq of NaN literals disagrees with the kernel."
  },
  {
   "property": "C12",
   "status": "proved",
   "theorems": [
    "Verif.Ops.C12_div",
    "Verif.Ops.C12_mod",
    "Verif.Ops.C12_mul",
    "Verif.Ops.C12_zero_by_zero",
    "Verif.Ops.C10_C13_binary"
   ],
   "note": "Divisors other than zero; the witness shows that 0/0 depends on how the operands are represented."
  },
  {
   "property": "C13",
   "status": "proved",
   "theorems": [
    "Verif.Ops.C10_C13_unary",
    "Verif.Ops.C10_C13_binary",
    "Verif.Ops.C10_C13_ternary",
    "Verif.Ops.C13_float_constants"
   ],
   "note": ""
  },
  {
   "property": "C14",
   "status": "partial",
   "theorems": [
    "Verif.Ops.C14_eq",
    "Verif.Ops.C14_eq_self",
    "Verif.Ops.C14_neq_partial",
    "Verif.Ops.C14_neq_nan_false",
    "Verif.Ops.C14_compare_ieee",
    "Verif.Ops.C14_neq_ieee_partial"
   ],
   "note": "eq holds; neq is refuted by a witness (x is a NaN) and proved in threads without NaN."
  },
  {
   "property": "C15",
   "status": "partial",
   "theorems": [
    "Verif.Var.C15_result_matches",
    "Verif.Var.C15_merge_sound",
    "Verif.Var.C15_differ_separate",
    "Verif.Var.C15_side_effects_separate",
    "Verif.Var.C15_dirty_operands",
    "Verif.Var.C15_third_operand_dirty_counterexample"
   ],
   "note": "Merging is proved sound for all histories. The dirty-operand part holds for nodes with one or two operands; for the third and fourth operand the code checks the wrong variable after evaluation, which is proved with a reachable witness. Evaluation is a parameter constrained by EvOK (proved for the trivial evaluation; the reference-counting contract of the real one is stated)."
  },
  {
   "property": "C16",
   "status": "proved",
   "theorems": [
    "Verif.Var.C16_no_abort",
    "Verif.Var.C16_held_live",
    "Verif.Var.C16_held_same",
    "Verif.Var.C16_operands_live",
    "Verif.Var.C16_no_leak",
    "Verif.Var.C16_no_double_free"
   ],
   "note": "All histories of the modelled calls; jitc_eval() is a parameter with the contract EvOK."
  },
  {
   "property": "C17",
   "status": "proved",
   "theorems": [
    "Verif.Var.C17_weak_ref"
   ],
   "note": "The slot counter is unbounded in the model (the C++ counter has 32 bits, see the quantifier)."
  },
  {
   "property": "C18",
   "status": "proved",
   "theorems": [
    "Verif.Var.C18_compact_order",
    "Verif.Var.C18_caller_scope_counterexample"
   ],
   "note": "Live variables and thread scopes as claimed; scope identifiers kept by the caller become stale (counterexample theorem)."
  },
  {
   "property": "C19",
   "status": "proved",
   "theorems": [
    "Verif.Eval.C19_kernels",
    "Verif.Eval.C19_terminates"
   ],
   "note": "All graphs (operands created before their uses; loop-carried values may be cyclic), all task lists and all earlier traversal histories. Contracts of std::sort and std::stable_sort are hypotheses, shown satisfiable. Operands in a newer scope are rejected by jitc_assemble (C53_checks). Recursion depth is assumed not to exhaust the stack."
  },
  {
   "property": "C20",
   "status": "proved",
   "theorems": [
    "Verif.Eval.C20_sorted",
    "Verif.Eval.C20_paths_agree"
   ],
   "note": "All schedules with fewer than 2^32 entries."
  },
  {
   "property": "C21",
   "status": "partial",
   "theorems": [
    "Verif.Llvm.C21_packets",
    "Verif.Llvm.C21_elements",
    "Verif.Llvm.C21_overflow"
   ],
   "note": "Proved for all sizes, packet sizes, block sizes and core counts without 32-bit wrap-around; for sizes close to 2^32 the number of packets wraps around and nothing is computed (proved witness)."
  },
  {
   "property": "C22",
   "status": "partial",
   "theorems": [
    "Verif.Llvm.C22_block_reduce",
    "Verif.Llvm.C22_integers",
    "Verif.Llvm.intFold_spec",
    "Verif.Llvm.intRed_exact",
    "Verif.Llvm.C22_trivial",
    "Verif.Llvm.C22_more_than_half"
   ],
   "note": "All interleavings of all tasks, any operation (floating point: result of some bracketing in order; integers: the exact value), accesses in bounds, frame. Requires size + block_size <= 2^32; a reduction of more than 2^31 elements to one value divides by zero (proved)."
  },
  {
   "property": "C23",
   "status": "partial",
   "theorems": [
    "Verif.Llvm.C23_block_prefix_reduce",
    "Verif.Llvm.C23_integers",
    "Verif.Llvm.identity_init",
    "Verif.Llvm.C23_trivial",
    "Verif.Llvm.C23_copy_wraps"
   ],
   "note": "All interleavings, any operation, in-place use, accesses in bounds, frame. Requires size + block_size <= 2^32 and, if block_size = 1, less than 2^32 bytes; otherwise the code copies too little (proved witness)."
  },
  {
   "property": "C24",
   "status": "partial",
   "theorems": [
    "Verif.Llvm.C24_all",
    "Verif.Llvm.C24_any",
    "Verif.Llvm.C24_all_async",
    "Verif.Llvm.C24_any_async",
    "Verif.Llvm.C24_padding",
    "Verif.Llvm.C24_empty",
    "Verif.Llvm.C24_empty_wrong"
   ],
   "note": "All contents, sizes and interleavings for a non-empty array. For size 0 the result is read from uninitialized memory (proved)."
  },
  {
   "property": "C25",
   "status": "partial",
   "theorems": [
    "Verif.Llvm.C25_compress",
    "Verif.Llvm.C25_empty",
    "Verif.Llvm.C25_huge"
   ],
   "note": "All masks, interleavings, worker counts; accesses in bounds. Requires size + block size <= 2^32; above, nothing is computed (proved witness)."
  },
  {
   "property": "C26",
   "status": "partial",
   "theorems": [
    "Verif.Llvm.C26_mkperm_partial",
    "Verif.Llvm.C26_fits",
    "Verif.Llvm.C26_partial_group_unsafe"
   ],
   "note": "Proved when the size is a multiple of the group size (or there is one group); otherwise the code reads out of bounds (proved witness)."
  },
  {
   "property": "C27",
   "status": "partial",
   "theorems": [
    "Verif.Llvm.C27_expanded_partial",
    "Verif.Llvm.C27_integers_partial",
    "Verif.Atomic.C27_kernel_partial",
    "Verif.Atomic.C27_index_counterexample",
    "Verif.Llvm.reduceExpanded_spec",
    "Verif.Llvm.C27_copy_wraps",
    "Verif.Llvm.C27_thread_count_changed",
    "Verif.Packet.C27_packet_partial"
   ],
   "note": "Expand, any history of updates on any threads, collapse: exact multiset of contributions; C27_kernel_partial includes the generated code of the kernel (plain loads and stores, every interleaving). Excludes arrays of 2^32 bytes or more, expanded arrays of 2^31 or more entries and changes of the thread count in between, where the property is false (proved witnesses)."
  },
  {
   "property": "C28",
   "status": "partial",
   "theorems": [
    "Verif.Gemm.C28_batched_gemm_partial",
    "Verif.Gemm.C28_deterministic",
    "Verif.Gemm.C28_exact",
    "Verif.Gemm.C28_matrix",
    "Verif.Gemm.C28_inner_zero",
    "Verif.Gemm.C28_empty_sum",
    "Verif.Gemm.C28_empty_sum_folded",
    "Verif.Gemm.C28_count_wraps",
    "Verif.Gemm.C28_diverges"
   ],
   "note": "LLVM backend, all shapes/strides within 32-bit limits, all schedules, any arithmetic (bit-identical). Missing: empty sums and sizes that wrap around, where the claim is refuted by the listed findings; other backends."
  },
  {
   "property": "C29",
   "status": "proved",
   "theorems": [
    "Verif.StrBuf.C29_spec_toString",
    "Verif.StrBuf.C29_put_u32",
    "Verif.StrBuf.C29_put_u64",
    "Verif.StrBuf.C29_injective"
   ],
   "note": "Every 32/64-bit value; the digits are those of Lean's Nat.repr."
  },
  {
   "property": "C30",
   "status": "proved",
   "theorems": [
    "Verif.StrBuf.C30_put_x32",
    "Verif.StrBuf.C30_put_x64",
    "Verif.StrBuf.C30_q64"
   ],
   "note": ""
  },
  {
   "property": "C31",
   "status": "partial",
   "theorems": [
    "Verif.StrBuf.C31_history",
    "Verif.StrBuf.C31_terminated_partial",
    "Verif.StrBuf.C31_put_owns",
    "Verif.StrBuf.C31_put_u32_unterminated",
    "Verif.StrBuf.C31_deleteTrailing_unterminated"
   ],
   "note": "Content and bounds are proved for all histories; termination fails after put_u32/u64/x32/x64 and delete_trailing_commas (counterexamples proved), and is proved after every other operation. vsnprintf is a parameter (its complete output)."
  },
  {
   "property": "C32",
   "status": "proved",
   "theorems": [
    "Verif.StrBuf.C32_format",
    "Verif.StrBuf.C32_bound"
   ],
   "note": "All three backends; every format whose directives match the arguments."
  },
  {
   "property": "C33",
   "status": "proved",
   "theorems": [
    "Verif.Arith.C33_divisor_exact",
    "Verif.Arith.ceilDiv_exact",
    "Verif.Arith.alignUp_exact",
    "Verif.Arith.log2iCeil_exact"
   ],
   "note": ""
  },
  {
   "property": "C34",
   "status": "partial",
   "theorems": [
    "Verif.Call.C34_bucket_size",
    "Verif.Call.C34_layout",
    "Verif.Call.C34_packets",
    "Verif.Call.C34_chunks",
    "Verif.Call.C34_odd_width"
   ],
   "note": "The layout (alignment, bounds, disjointness, completeness) is proved for all instances, captured values and backends. Vector loads: proved for CUDA/Metal and for LLVM if the vector width is a power of two; for other widths accepted by jit_llvm_set_target the loads can be misaligned (proved witness)."
  },
  {
   "property": "C35",
   "status": "partial",
   "theorems": [
    "Verif.Call.C35_entry",
    "Verif.Call.C35_upload_partial",
    "Verif.Call.C35_twice"
   ],
   "note": "Encoding: all 32 bit offsets and indices. Contents of the buffer after the upload: all calls, getters, nestings and schedules, provided each node is assembled once per kernel; fails otherwise (proved witness)."
  },
  {
   "property": "C36",
   "status": "proved",
   "theorems": [
    "Verif.Cache.C36_roundtrip",
    "Verif.Cache.C36_any_contents",
    "Verif.Cache.C36_loads",
    "Verif.Cache.C36_complete",
    "Verif.Cache.C36_hit",
    "Verif.Cache.exRun",
    "Verif.Cache.entryName_inj",
    "Verif.Cache.tmpName_inj",
    "Verif.Cache.entry_ne_tmp"
   ],
   "note": "Small-step model of any number of processes (crash at any point, process numbers reused, torn writes, read/write errors, eviction). Loads are exact if no two different texts that occur in the run have equal 128-bit checksums; published entries are complete without any assumption on checksums. Power loss is covered by C36_any_contents (arbitrary file contents)."
  },
  {
   "property": "C37",
   "status": "proved",
   "theorems": [
    "Verif.Cache.C37_only_entries",
    "Verif.Cache.C37_within",
    "Verif.Cache.C37_below",
    "Verif.Cache.C37_oldest_first",
    "Verif.Cache.C37_minimal",
    "Verif.Cache.C37_tmp_ignored"
   ],
   "note": "Directory contents, sizes, time stamps, limits and failing removals are arbitrary; the sum of sizes is below 2^64."
  },
  {
   "property": "C38",
   "status": "partial",
   "theorems": [
    "Verif.Cache.C38_exact",
    "Verif.Cache.C38_reject_partial",
    "Verif.Cache.C38_negative_accepted"
   ],
   "note": "The code accepts a negative number after white space and wraps it (proved witness); all other malformed strings are rejected."
  },
  {
   "property": "C39",
   "status": "proved",
   "theorems": [
    "Verif.Half.C39_to_float",
    "Verif.Half.C39_to_half",
    "Verif.Half.C39_nearest_unique",
    "Verif.Half.C39_roundtrip",
    "Verif.Half.C39_mul_exists"
   ],
   "note": "Software fallback; float multiplication is any function satisfying the IEEE 754 specification IsMul (shown to exist). Hardware conversion instructions are not modelled."
  },
  {
   "property": "C40",
   "status": "partial",
   "theorems": [
    "Verif.Gather.C40_gather",
    "Verif.Gather.C40_same_as_evaluated",
    "Verif.Jit.refGather_ok",
    "Verif.Jit.C40_masked_division",
    "Verif.Gather.C40_scalar_in_bounds"
   ],
   "note": "All histories of variable operations, mask stack operations and gathers; all paths of jitc_var_gather (size-1 source, identity index, rebuilt expression, single entry, gather node). Evaluation and allocation are contracts; Verif.Jit proves that its model of evaluation meets the first. Masked lanes are only specified if the operations of the source are total; otherwise a masked lane may divide by zero (proved witness). Lanes that are only disabled by the mask stack are not specified. Missing: gathers from local arrays, ScatterInc results, loop state variables, packet gathers."
  },
  {
   "property": "C41",
   "status": "partial",
   "theorems": [
    "Verif.Ctrl.C41_recorded_loops_compute_the_program",
    "Verif.Ctrl.C41_optimised_loops_agree",
    "Verif.Ctrl.C41_llvm_kernels_compute_each_lane",
    "Verif.Ctrl.C41_results_of_size_1_are_uniform_partial",
    "Verif.Ctrl.C41_back_edge_is_simultaneous"
   ],
   "note": "Programs with arbitrarily nested loops and conditionals, recorded with any settings, have the values that the program computes in every lane, for every number of iterations; LLVM packets agree with the lanes. Missing: side effects, types, local arrays, and the order of the generated code."
  },
  {
   "property": "C42",
   "status": "partial",
   "theorems": [
    "Verif.Ctrl.C42_outputs_have_the_selected_value",
    "Verif.Ctrl.C42_scalar_condition_truncates"
   ],
   "note": "Values of outputs, elided or not, are the selected ones in every lane. A result of a scalar condition with wide branches has a single entry (counterexample). Missing: types, side effects."
  },
  {
   "property": "C43",
   "status": "partial",
   "theorems": [
    "Verif.LocalArr.C43_local_arrays_partial",
    "Verif.LocalArr.C43_evaluation_partial",
    "Verif.LocalArr.C43_in_bounds_partial",
    "Verif.LocalArr.C43_evaluation_succeeds_partial",
    "Verif.LocalArr.C43_init_fork",
    "Verif.LocalArr.C43_init_read",
    "Verif.LocalArr.C43_double_init",
    "Verif.LocalArr.C43_stale_storage",
    "Verif.LocalArr.C43_init_masked_read",
    "Verif.LocalArr.C43_masked_read_size"
   ],
   "note": "For every history of array creations, initialisations, writes, reads, other operations and evaluations, every evaluated variable holds what its call means, for kernels in which initialised arrays are not accessed after a write and writes were not recorded before their target was evaluated (Plain), and for unmasked reads of initialised arrays (ReadOK). Witnesses show that the property fails otherwise. Not modelled: arrays in loops, conditionals and selections."
  },
  {
   "property": "C44",
   "status": "proved",
   "theorems": [
    "Verif.Gather.C44_entries_live",
    "Verif.Gather.C44_entries_counted",
    "Verif.Gather.C44_no_leak",
    "Verif.Gather.C44_balanced",
    "Verif.Gather.C44_innermost",
    "Verif.Gather.C44_underflow",
    "Verif.Gather.C44_peek",
    "Verif.Gather.C44_apply",
    "Verif.Gather.C44_scope_enter",
    "Verif.Gather.C44_scope_round_trip",
    "Verif.Gather.C44_zero_scope_counterexample"
   ],
   "note": "All histories of push, pop, peek, apply, evaluation scopes and variable operations. Balance of evaluation scopes needs a scope other than 0 (proved witness otherwise; only possible after jit_set_scope(0) in a symbolic region)."
  },
  {
   "property": "C45",
   "status": "partial",
   "theorems": [
    "Verif.Reduce.C45_block_reduce_partial",
    "Verif.Reduce.C45_reduce_partial",
    "Verif.Reduce.C45_reduce_empty",
    "Verif.Reduce.C45_prefix_sum_partial",
    "Verif.Reduce.C45_prefix_minmax_partial",
    "Verif.Reduce.C45_reverse_incomplete_block",
    "Verif.Reduce.C45_exclusive_minimum",
    "Verif.Reduce.C45_product_wraps",
    "Verif.Reduce.C45_sum_overflow"
   ],
   "note": "Integer types. Block reductions, reductions and prefix reductions of literals are the reductions of the entries (the specification is that of C22 and C23, which the reduction kernels are proved to meet). Assumed: std::pow is exact up to 2^53, products fit, size + block size does not exceed 2^32, complete blocks for reversed prefix sums, inclusive prefix minima and maxima; the property fails otherwise (proved witnesses). Missing: floating point types."
  },
  {
   "property": "C46",
   "status": "partial",
   "theorems": [
    "Verif.Gather.C46_tile",
    "Verif.Gather.C46_repeat",
    "Verif.Gather.C46_reverse",
    "Verif.Gather.C46_zero_times"
   ],
   "note": "All sizes, counts and reachable states, sources in memory and expressions of the modelled operations: size, type, entries, and that the entries read exist. Count zero raises an exception (proved) instead of returning an empty array. Missing: results with a single entry created inside a symbolic scope, lanes disabled by the mask stack, sources with operations outside of the model of values; the release of temporaries when an exception is raised."
  },
  {
   "property": "C47",
   "status": "partial",
   "theorems": [
    "Verif.Llvm.C47_swapped",
    "Verif.Llvm.C47_single_block_partial"
   ],
   "note": "The property is false: size and block_size are swapped, and every call with more than one block raises an exception (proved). Only calls with one block work."
  },
  {
   "property": "C48",
   "status": "partial",
   "theorems": [
    "Verif.Scatter.C48_arrays_behave_like_values_partial",
    "Verif.Scatter.C48_other_references_read_the_old_contents_partial",
    "Verif.Scatter.C48_mask_is_target_counterexample",
    "Verif.Scatter.C48_shrink_counterexample",
    "Verif.Scatter.C48_shrink_pending_counterexample",
    "Verif.Scatter.C48_stash_counterexample",
    "Verif.Scatter.C48_mixed_counterexample",
    "Verif.Scatter.C48_expand_counterexample",
    "Verif.Scatter.C48_expanded_counterexample"
   ],
   "note": "Proved for all programs of literals, inputs, operations, gathers, scatters, writes, aliases, evaluations and reads, for all orders of lanes and all interleavings of an evaluation, under the restrictions of Ordered: no shrunk arrays or stashed counts, no reduction after a pending scatter of another kind, on LLVM no reduction whose operands have pending writes after another reduction, elsewhere no scatter whose mask is its target. The counterexample theorems show that each restriction is needed."
  },
  {
   "property": "C49",
   "status": "partial",
   "theorems": [
    "Verif.Eval.C49_task_order",
    "Verif.Eval.C49_values_first",
    "Verif.Eval.C49_side_effects_partial",
    "Verif.Eval.C49_result_overtakes"
   ],
   "note": "Order of the tasks: fully proved. Order of execution: proved unless the later side effect is needed by a computed value or an earlier side effect; in that case it fails (proved witness: scatter followed by scatter_exch)."
  },
  {
   "property": "C50",
   "status": "partial",
   "theorems": [
    "Verif.Llvm.Mem.C50_memset_raises",
    "Verif.Llvm.Mem.C50_memset",
    "Verif.Llvm.Mem.C50_memcpy",
    "Verif.Llvm.Mem.C50_poke",
    "Verif.Llvm.Mem.C50_aggregate",
    "Verif.Llvm.Mem.C50_aggregate_huge"
   ],
   "note": "memset, memcpy, poke: all sizes and patterns. aggregate: all entry lists with disjoint targets and up to 2^32 - 16384 entries; above, nothing is written (proved witness)."
  },
  {
   "property": "C51",
   "status": "proved",
   "theorems": [
    "Verif.Hash.C51_fmix32_injective",
    "Verif.Hash.C51_fmix64_injective",
    "Verif.Hash.C51_hashers_injective",
    "Verif.Hash.C51_bijective",
    "Verif.Hash.C51_hashCombine_injective"
   ],
   "note": "Also fmix64 and hash_combine."
  },
  {
   "property": "C52",
   "status": "partial",
   "theorems": [
    "Verif.Call.Reduce.C52_reduce",
    "Verif.Call.Reduce.C52_history_partial",
    "Verif.Call.Reduce.C52_stale"
   ],
   "note": "First request: all arrays, thread counts, interleavings. Later requests: correct unless the array was changed in place or another domain is used (proved witness of stale results)."
  },
  {
   "property": "C53",
   "status": "proved",
   "theorems": [
    "Verif.Eval.Asm.C53_slots",
    "Verif.Eval.Asm.C53_slots_differ",
    "Verif.Eval.Asm.C53_checks",
    "Verif.Eval.Asm.C53_capacity"
   ],
   "note": "All schedules without repetition (C19). The code generator is not modelled."
  },
  {
   "property": "C54",
   "status": "partial",
   "theorems": [
    "Verif.Eval.Gen.C54_traverse_partial",
    "Verif.Eval.Gen.C54_analyze_partial",
    "Verif.Eval.Gen.C54_stashed_size_fails"
   ],
   "note": "All histories, including the wrap-around. Fails for literals whose scratch field holds a stashed size (proved witness)."
  },
  {
   "property": "C55",
   "status": "partial",
   "theorems": [
    "Verif.Var.C55_attributes_kept_partial",
    "Verif.Var.C55_resize_changes_operand_counterexample"
   ],
   "note": "All attributes but the size of unevaluated variables; jit_var_resize() changes that in place."
  },
  {
   "property": "C56",
   "status": "proved",
   "theorems": [
    "Verif.Alloc.C56_migrate_result",
    "Verif.Alloc.C56_copy_disjoint",
    "Verif.Alloc.C56_migrate_distinct_backends_raises",
    "Verif.Alloc.C56_migrate_failure_keeps_live_blocks",
    "Verif.Alloc.C56_migrate_unknown",
    "Verif.Alloc.C56_failed_staging_leaks"
   ],
   "note": "Block ownership only; the copied bytes are not modelled. C56_failed_staging_leaks records that a failed staging allocation leaves the new destination block live."
  },
  {
   "property": "C57",
   "status": "proved",
   "theorems": [
    "Verif.Half.C57_mul",
    "Verif.Half.C57_neg"
   ],
   "note": "Over the software conversions of C39."
  },
  {
   "property": "C58",
   "status": "partial",
   "theorems": [
    "Verif.Cache.C58_hourly_partial",
    "Verif.Cache.C58_two_sweeps"
   ],
   "note": "Holds if test and update of the time stamp are not interleaved with those of other processes; the code does not ensure this and two processes may sweep at the same time (proved witness)."
  },
  {
   "property": "C59",
   "status": "partial",
   "theorems": [
    "Verif.Eval.C59_consumed_not_rerun",
    "Verif.Eval.C59_one_kernel_partial",
    "Verif.Eval.C59_two_kernels"
   ],
   "note": "Proved for variables needed by tasks of one size and for variables consumed by an earlier evaluation; fails if tasks of two sizes need the variable (proved witness)."
  },
  {
   "property": "C60",
   "status": "proved",
   "theorems": [
    "Verif.Call.C60_dispatch",
    "Verif.Call.C60_pure",
    "Verif.Call.C60_single",
    "Verif.Call.C60_instances"
   ],
   "note": "LLVM backend; all widths, tables, masks and callables with state. C60_instances is on top of C35_upload_partial. Generated code is modelled by the values of its virtual registers."
  },
  {
   "property": "C61",
   "status": "partial",
   "theorems": [
    "Verif.Jit.C61_no_crash",
    "Verif.Jit.C61_held",
    "Verif.Jit.C61_failed",
    "Verif.Jit.C61_evaluated",
    "Verif.Jit.C61_untouched",
    "Verif.Jit.C61_values",
    "Verif.Jit.C61_no_leak",
    "Verif.Jit.C61_no_double_free",
    "Verif.Jit.varEval_ok",
    "Verif.Jit.refLaunch_ok",
    "Verif.Jit.C61_lost_reference",
    "Verif.Jit.C61_marked_twice"
   ],
   "note": "All histories of calls, operations, evaluations and failed evaluations, with the traversal, grouping and clean-up of jitc_eval_impl. The kernel launch is a contract (LaunchOK), which a reference interpreter meets. Missing: a run in which the traversal drops a side effect without releasing it stops the model; the code leaks there (two proved witnesses). Variables with more than four operands (loops, calls, packets) are not modelled."
  },
  {
   "property": "C62",
   "status": "partial",
   "theorems": [
    "Verif.Freeze.C62_replay_partial",
    "Verif.Freeze.C62_same_sizes_partial",
    "Verif.Freeze.C62_memset_counterexample",
    "Verif.Freeze.C62_launch_size_counterexample",
    "Verif.Freeze.C62_shrunk_counterexample",
    "Verif.Freeze.C62_compress_filled_counterexample",
    "Verif.Freeze.C62_compress_empty_counterexample",
    "Verif.Freeze.C62_aggregate_filled_counterexample",
    "Verif.Freeze.C62_block_size_counterexample",
    "Verif.Freeze.C62_partial_copy_counterexample",
    "Verif.Freeze.C62_sync_copy_counterexample",
    "Verif.Freeze.C62_local_array_counterexample",
    "Verif.Freeze.C62_number_counterexample",
    "Verif.Freeze.C62_untracked_output_counterexample",
    "Verif.Freeze.C62_large_argument_counterexample"
   ],
   "note": "Record, then replay with other arguments: same results as a direct execution, for all kernels, for calls on whole arrays whose sizes change as described by Similar. Missing: the functions of the counterexamples (for which the code is wrong), pauses, expanded reductions, OptiX and textures."
  },
  {
   "property": "C63",
   "status": "partial",
   "theorems": [
    "Verif.Freeze.C63_no_effects",
    "Verif.Freeze.C63_accepted_operations",
    "Verif.Freeze.C63_accepted_partial",
    "Verif.Freeze.C63_sizes",
    "Verif.Freeze.C63_rejected_partial",
    "Verif.Freeze.C63_empty_output_counterexample",
    "Verif.Freeze.C63_dot_counterexample",
    "Verif.Freeze.C63_compress_counterexample"
   ],
   "note": "No effects, agreement of sizes and no rejection or termination by operations after acceptance: for all recordings. Missing: empty outputs terminate the process, dot products need no dry run and compressions are always rejected (counterexamples)."
  },
  {
   "property": "C64",
   "status": "partial",
   "theorems": [
    "Verif.Freeze.C64_ownership_partial",
    "Verif.Freeze.C64_reachable",
    "Verif.Freeze.C64_other_arrays",
    "Verif.Freeze.C64_duplicate_counterexample",
    "Verif.Freeze.C64_overwritten_counterexample",
    "Verif.Freeze.C64_raise_counterexample"
   ],
   "note": "Exact set of allocated blocks after a replay, for all functions that do not overwrite arguments and return different arrays; other memory is unchanged for all recordings. Missing: the three cases of the counterexamples, where the code leaks or double-frees."
  },
  {
   "property": "C65",
   "status": "partial",
   "theorems": [
    "Verif.Freeze.C65_self_contained_partial",
    "Verif.Freeze.C65_permutation_counterexample",
    "Verif.Freeze.C65_sync_copy_counterexample",
    "Verif.Freeze.C65_overwritten_counterexample"
   ],
   "note": "Accepted recordings only use arguments and own results, for all functions that do not overwrite arrays. Missing: permutations, synchronous copies and arrays that are overwritten later (counterexamples); arrays that a kernel reaches through pointers inside of arguments."
  },
  {
   "property": "C66",
   "status": "partial",
   "theorems": [
    "Verif.Atomic.C66_reduce_direct",
    "Verif.Atomic.C66_reduce_local_partial",
    "Verif.Atomic.C66_reduce_noconflict_partial",
    "Verif.Atomic.C27_kernel_partial",
    "Verif.Atomic.C66_reduce_safe",
    "Verif.Atomic.C66_reduce_direct_any",
    "Verif.Atomic.C66_local_counterexample",
    "Verif.Atomic.C66_local_nan_counterexample"
   ],
   "note": "Mode Direct: all integer types and operations, and any other operation up to the order of lanes. Modes Local, NoConflicts (if threads use different entries, as the caller promises) and Expand: integers, if no entry lies at a multiple of 2^(32+shift) bytes (counterexample). Missing: minima and maxima of floats."
  },
  {
   "property": "C67",
   "status": "proved",
   "theorems": [
    "Verif.Atomic.C67_inc",
    "Verif.Atomic.C67_inc_distinct",
    "Verif.Atomic.C67_inc_safe"
   ],
   "note": "All widths up to 32, all interleavings."
  },
  {
   "property": "C68",
   "status": "partial",
   "theorems": [
    "Verif.Atomic.C68_exch_partial",
    "Verif.Atomic.C68_cas_partial",
    "Verif.Atomic.C68_cas_winner_partial",
    "Verif.Atomic.C68_safe_partial",
    "Verif.Atomic.C68_unmasked_counterexample"
   ],
   "note": "All executions with a mask that is not a literal; with a literal mask the generated code is wrong (counterexample)."
  },
  {
   "property": "C69",
   "status": "partial",
   "theorems": [
    "Verif.Packet.C69_gather_packet",
    "Verif.Packet.C69_debug_partial",
    "Verif.Packet.C69_debug_counterexample"
   ],
   "note": "Everything without debug mode, for all widths (powers of two), packet sizes and addresses. The bounds check of debug mode is proved for products below 2^32 and refuted in general."
  },
  {
   "property": "C70",
   "status": "partial",
   "theorems": [
    "Verif.Packet.C70_scatter_packet_partial",
    "Verif.Packet.C27_packet_partial",
    "Verif.Packet.C70_unaligned_counterexample",
    "Verif.Packet.C70_size_one_counterexample",
    "Verif.Packet.C70_debug_expand_counterexample"
   ],
   "note": "Aligned targets whose size is a multiple of n, threads that do not share groups (or the mode Expand for integers, without debug mode). The other cases are refuted by counterexamples."
  },
  {
   "property": "C71",
   "status": "partial",
   "theorems": [
    "Verif.Capture.C71_captured_partial",
    "Verif.Capture.C71_functions_complete_partial",
    "Verif.Capture.C71_arguments_partial",
    "Verif.Capture.C71_terminates",
    "Verif.Capture.C71_cas_mask_counterexample",
    "Verif.Capture.C71_scope_counterexample"
   ],
   "note": "Graphs without compare-exchange operations, whose variables are not evaluated between recording and code generation, LLVM backend; arguments stand before the call if it has a newer scope. The two exceptions are refuted by counterexamples."
  },
  {
   "property": "C72",
   "status": "partial",
   "theorems": [
    "Verif.Lanes.C72_no_stack",
    "Verif.Lanes.C72_history_partial",
    "Verif.Lanes.C72_masks_partial",
    "Verif.Lanes.C72_literal_counterexample",
    "Verif.Lanes.C72_scalar_counterexample"
   ],
   "note": "Complete without a usable mask on the stack. With a mask on the stack: for masks obtained from the mask functions, where masks of one element are not evaluated; both exceptions are refuted by counterexamples."
  },
  {
   "property": "C73",
   "status": "partial",
   "theorems": [
    "Verif.CoopMat.C73_pack_partial",
    "Verif.CoopMat.C73_safe_partial",
    "Verif.CoopMat.C73_roundtrip_partial",
    "Verif.CoopMat.C73_layouts_partial",
    "Verif.CoopMat.C73_offset_counterexample"
   ],
   "note": "LLVM backend, matrices that end within the first 4 GiB of the buffer; refuted for larger offsets."
  },
  {
   "property": "C74",
   "status": "partial",
   "theorems": [
    "Verif.CoopVec.C74_matvec_partial",
    "Verif.CoopVec.C74_sum_partial",
    "Verif.CoopVec.C74_length_partial",
    "Verif.CoopVec.C74_stride_counterexample",
    "Verif.CoopVec.C74_offset_counterexample",
    "Verif.CoopVec.C74_length_counterexample"
   ],
   "note": "LLVM backend, tightly packed matrices at offsets below 2^31 and at most 65535 components; refuted otherwise."
  },
  {
   "property": "C75",
   "status": "partial",
   "theorems": [
    "Verif.CoopVec.C75_accum_partial",
    "Verif.CoopVec.C75_outer_partial",
    "Verif.CoopVec.C75_order_partial",
    "Verif.CoopVec.C75_outer_order_partial",
    "Verif.CoopVec.C75_outer_counterexample",
    "Verif.CoopVec.C75_accum_counterexample"
   ],
   "note": "LLVM backend; exact arithmetic, or any addition outside of calls; offsets below 2^31 (bytes for outer products, elements for accumulations); refuted beyond."
  },
  {
   "property": "C76",
   "status": "partial",
   "theorems": [
    "Verif.CoopVec.C76_elementwise_partial",
    "Verif.CoopVec.C76_defined_partial",
    "Verif.CoopVec.C76_roundtrip",
    "Verif.CoopVec.C76_cast_partial",
    "Verif.CoopVec.C76_shared_counterexample",
    "Verif.CoopVec.C76_zero_counterexample",
    "Verif.CoopVec.C76_nan_counterexample",
    "Verif.CoopVec.C76_pack_counterexample",
    "Verif.CoopVec.C76_length_counterexample",
    "Verif.CoopVec.C76_cast_counterexample"
   ],
   "note": "LLVM backend; up to an equivalence that justifies the simplifications; offsets below 2^31 and lengths below 2^16; operands with different sizes not shared; finite arguments of min/max; refuted otherwise."
  },
  {
   "property": "C77",
   "status": "partial",
   "theorems": [
    "Verif.Llvm.C77_dot_partial",
    "Verif.Llvm.C77_exact",
    "Verif.Llvm.C77_size_counterexample"
   ],
   "note": "LLVM backend; sizes up to 2^32 minus the size of a block; refuted above."
  },
  {
   "property": "C78",
   "status": "partial",
   "theorems": [
    "Verif.Callable.C78_general_partial",
    "Verif.Callable.C78_merged_partial",
    "Verif.Callable.C78_unmerged_partial",
    "Verif.Callable.C78_unmerged_counterexample",
    "Verif.Callable.C78_unmerged_name_counterexample",
    "Verif.Callable.C78_merged_name_counterexample"
   ],
   "note": "LLVM backend; merged: functions not shared between calls with one and several targets; unmerged: calls with several targets only; refuted otherwise."
  },
  {
   "property": "C79",
   "status": "partial",
   "theorems": [
    "Verif.Callable.Mem.C79_sections_partial",
    "Verif.Callable.Mem.C79_relocation",
    "Verif.Callable.Mem.C79_capacity",
    "Verif.Callable.Mem.C79_buffer_partial",
    "Verif.Callable.Mem.C79_padding_counterexample",
    "Verif.Callable.Mem.C79_failure_counterexample"
   ],
   "note": "LLVM backend; as long as the buffer is sufficient and memory allocation succeeds; refuted otherwise."
  },
  {
   "property": "C80",
   "status": "partial",
   "theorems": [
    "Verif.Nano.C80_vector_partial",
    "Verif.Nano.C80_vector_freed",
    "Verif.Nano.C80_vector_eq",
    "Verif.Nano.C80_alias_counterexample"
   ],
   "note": "Arguments must not refer to elements of the same array when it grows; refuted otherwise. Memory allocation succeeds."
  },
  {
   "property": "C81",
   "status": "partial",
   "theorems": [
    "Verif.Nano.Str.C81_string_partial",
    "Verif.Nano.Str.C81_string_freed",
    "Verif.Nano.Str.C81_self_counterexample",
    "Verif.Nano.Str.C81_cstr_counterexample"
   ],
   "note": "Strings are not assigned to themselves and their c_str() is not passed to themselves; refuted otherwise. Memory allocation succeeds."
  },
  {
   "property": "C82",
   "status": "partial",
   "theorems": [
    "Verif.Cuda.C82_prefix_partial",
    "Verif.Cuda.C82_element_once",
    "Verif.Cuda.C82_chunk_index",
    "Verif.Cuda.C82_progress",
    "Verif.Cuda.C82_execution_exists",
    "Verif.Cuda.C82_raise",
    "Verif.Cuda.C82_copy_counterexample",
    "Verif.Cuda.C82_division_counterexample",
    "Verif.Cuda.C82_max_u64_counterexample"
   ],
   "note": "Up to 2^31 - 2^17 elements and copies below 4 GiB; refuted beyond. Minima and maxima of UInt64 use kernels for 32 bit elements: refuted."
  },
  {
   "property": "C83",
   "status": "partial",
   "theorems": [
    "Verif.Cuda.C83_compress_partial",
    "Verif.Cuda.C83_mask_bounds",
    "Verif.Cuda.C83_scratch_bounds",
    "Verif.Cuda.C83_execution_exists",
    "Verif.Cuda.C83_large_counterexample"
   ],
   "note": "Up to 2^32 - 2048 entries; refuted beyond."
  },
  {
   "property": "C84",
   "status": "partial",
   "theorems": [
    "Verif.Cuda.C84_reduce_partial",
    "Verif.Cuda.C84_result_unique",
    "Verif.Cuda.C84_execution_exists",
    "Verif.Cuda.C84_raise",
    "Verif.Cuda.C84_shared_writes",
    "Verif.Cuda.C84_shared_reads_partial",
    "Verif.Cuda.C84_shared_reads_counterexample",
    "Verif.Cuda.C84_copy_counterexample",
    "Verif.Cuda.C84_division_counterexample"
   ],
   "note": "Up to 2^31 - 2^17 elements, copies below 2^32 bytes; refuted beyond for copies and block sizes. Shared memory reads are in bounds except for thread blocks of 64 threads (refuted)."
  },
  {
   "property": "C85",
   "status": "partial",
   "theorems": [
    "Verif.Cuda.C85_dot_partial",
    "Verif.Cuda.C85_dot_exact",
    "Verif.Cuda.C85_execution_exists",
    "Verif.Cuda.C85_hang_counterexample",
    "Verif.Cuda.C85_launch_counterexample"
   ],
   "note": "For n + 8192 * (multiprocessors) <= 2^32; refuted beyond (the kernel may not terminate, or the launch fails)."
  },
  {
   "property": "C86",
   "status": "partial",
   "theorems": [
    "Verif.CudaPerm.C86_mkperm_partial",
    "Verif.CudaPerm.C86_stable_partial",
    "Verif.CudaPerm.C86_permutation",
    "Verif.CudaPerm.C86_execution_exists",
    "Verif.CudaPerm.C86_lanes",
    "Verif.CudaPerm.C86_single_iteration",
    "Verif.CudaPerm.C86_launch_config",
    "Verif.CudaPerm.C86_groups_counterexample",
    "Verif.CudaPerm.C86_buckets_counterexample",
    "Verif.CudaPerm.C86_transpose_counterexample",
    "Verif.CudaPerm.C86_histogram_counterexample",
    "Verif.CudaPerm.C86_size_counterexample"
   ],
   "note": "For size + block_size <= 2^32 - 2^20, at most 65535 groups, at most 1048560 buckets, and histograms below 4 GiB; refuted beyond. The prefix sum is given by its result (C82)."
  },
  {
   "property": "C87",
   "status": "partial",
   "theorems": [
    "Verif.CudaGemm.C87_batched_gemm_partial",
    "Verif.CudaGemm.C87_kernel",
    "Verif.CudaGemm.C87_aligned",
    "Verif.CudaGemm.C87_no_race",
    "Verif.CudaGemm.C87_accepted",
    "Verif.CudaGemm.C87_exact_padding",
    "Verif.CudaGemm.C87_tall_counterexample",
    "Verif.CudaGemm.C87_folding_counterexample",
    "Verif.CudaGemm.C87_empty_grid_counterexample",
    "Verif.CudaGemm.C87_misaligned_counterexample",
    "Verif.CudaGemm.C87_large_operand_counterexample",
    "Verif.CudaGemm.C87_available",
    "Verif.CudaGemm.C87_empty"
   ],
   "note": "For operands and results of at most 2^32 elements, nonempty grids and sums; refuted beyond, and for strides that are not multiples of the vector width. Exceptions are excluded for at most 524280 rows and 65535 grid points."
  },
  {
   "property": "C88",
   "status": "partial",
   "theorems": [
    "Verif.CudaLaunch.C88_each_once_partial",
    "Verif.CudaLaunch.C88_optix_each_once",
    "Verif.CudaLaunch.C88_optix_limits",
    "Verif.CudaLaunch.C88_launch_limits",
    "Verif.CudaLaunch.C88_memset_raises",
    "Verif.CudaLaunch.C88_memset_partial",
    "Verif.CudaLaunch.C88_poke",
    "Verif.CudaLaunch.C88_aggregate_partial",
    "Verif.CudaLaunch.C88_no_blocks_counterexample",
    "Verif.CudaLaunch.C88_twice_counterexample",
    "Verif.CudaLaunch.C88_memset_counterexample",
    "Verif.CudaLaunch.C88_aggregate_empty_counterexample"
   ],
   "note": "For sizes up to 2^32 - 1024 (nonempty lists of entries) and fewer than 2^16 multiprocessors; refuted beyond."
  },
  {
   "property": "C89",
   "status": "partial",
   "theorems": [
    "Verif.CudaScatter.C89_uniform",
    "Verif.CudaScatter.C89_reduce_any",
    "Verif.CudaScatter.C89_reduce",
    "Verif.CudaScatter.C89_direct",
    "Verif.CudaScatter.C89_reduce_exists",
    "Verif.CudaScatter.C89_index_counterexample",
    "Verif.CudaScatter.C89_inc",
    "Verif.CudaScatter.C89_inc_exists",
    "Verif.CudaScatter.C89_min",
    "Verif.CudaScatter.C89_max",
    "Verif.CudaScatter.C89_minmax_laws",
    "Verif.CudaScatter.C89_nan_counterexample",
    "Verif.CudaScatter.C89_half",
    "Verif.CudaScatter.C89_half_exact",
    "Verif.CudaScatter.C89_half_zero_counterexample",
    "Verif.CudaScatter.C89_half_beyond_counterexample",
    "Verif.CudaScatter.C89_exch",
    "Verif.CudaScatter.C89_cas_partial",
    "Verif.CudaScatter.C89_cas_masked",
    "Verif.CudaScatter.C89_cas_mask_counterexample"
   ],
   "note": "Compare-exchange only for lanes that are not masked; refuted for masked lanes. Additions of half precision numbers up to the sign of zero of the neighbour."
  },
  {
   "property": "C90",
   "status": "partial",
   "theorems": [
    "Verif.CudaPacket.C90_gather",
    "Verif.CudaPacket.C90_address",
    "Verif.CudaPacket.C90_accesses",
    "Verif.CudaPacket.C90_scatter_any",
    "Verif.CudaPacket.C90_scatter",
    "Verif.CudaPacket.C90_scatter_exists",
    "Verif.CudaPacket.C90_roundtrip",
    "Verif.CudaPacket.C90_gather_bool",
    "Verif.CudaPacket.C90_misaligned_counterexample",
    "Verif.CudaPacket.C90_single_target_counterexample"
   ],
   "note": "Alignment of accesses is proved for arrays that are aligned, and refuted for mapped arrays. Scatters into targets whose size is a multiple of the packet size; refuted for targets with one element."
  },
  {
   "property": "C91",
   "status": "partial",
   "theorems": [
    "Verif.Tex.C91_upload",
    "Verif.Tex.C91_download",
    "Verif.Tex.C91_roundtrip",
    "Verif.Tex.C91_staging",
    "Verif.Tex.C91_level",
    "Verif.Tex.C91_lookup",
    "Verif.Tex.C91_bilerp",
    "Verif.Tex.C91_lookup_mask",
    "Verif.Tex.C91_write_partial",
    "Verif.Tex.C91_write_three_counterexample",
    "Verif.Tex.C91_lifetime",
    "Verif.Tex.C91_pending_write_counterexample"
   ],
   "note": "Writes are proved for numbers of channels that are not 3 modulo 4 and refuted for the others. Lifetime is proved for lookups and refuted for pending writes."
  },
  {
   "property": "C92",
   "status": "partial",
   "theorems": [
    "Verif.MetalScatter.C92_peers",
    "Verif.MetalScatter.C92_peers_exists",
    "Verif.MetalScatter.C92_uniform",
    "Verif.MetalScatter.C92_leader",
    "Verif.MetalScatter.C92_reduce_any",
    "Verif.MetalScatter.C92_reduce",
    "Verif.MetalScatter.C92_reduce_exists",
    "Verif.MetalScatter.C92_inc",
    "Verif.MetalScatter.C92_inc_exists",
    "Verif.MetalScatter.C92_inc_direct",
    "Verif.MetalScatter.C92_minmax",
    "Verif.MetalScatter.C92_minmax_laws",
    "Verif.MetalScatter.C92_exch",
    "Verif.MetalScatter.C92_cas_partial",
    "Verif.MetalScatter.C92_cas_weak_counterexample"
   ],
   "note": "Compare-exchange: success for equal values is proved only if the weak compare-exchange does not fail spuriously, and refuted otherwise. Everything else is proved."
  },
  {
   "property": "C93",
   "status": "partial",
   "theorems": [
    "Verif.MetalPacket.C93_words",
    "Verif.MetalPacket.C93_gather",
    "Verif.MetalPacket.C93_gather_bool",
    "Verif.MetalPacket.C93_scatter_cuda",
    "Verif.MetalPacket.C93_scatter_any",
    "Verif.MetalPacket.C93_scatter",
    "Verif.MetalPacket.C93_scatter_exists",
    "Verif.MetalPacket.C93_roundtrip",
    "Verif.MetalPacket.C93_single_target_counterexample",
    "Verif.MetalPacket.C93_misaligned_counterexample"
   ],
   "note": "Accesses are aligned only if the array is, which is refuted for mapped arrays; scatters to arrays of one element are accepted and exceed them. Everything else is proved."
  },
  {
   "property": "C94",
   "status": "partial",
   "theorems": [
    "Verif.MetalCoop.C94_scalar",
    "Verif.MetalCoop.C94_pad",
    "Verif.MetalCoop.C94_fast_partial",
    "Verif.MetalCoop.C94_fast_exists",
    "Verif.MetalCoop.C94_sum_partial",
    "Verif.MetalCoop.C94_accum_order",
    "Verif.MetalCoop.C94_outer_order",
    "Verif.MetalCoop.C94_accum",
    "Verif.MetalCoop.C94_outer",
    "Verif.MetalCoop.C94_half_partial",
    "Verif.MetalCoop.C94_half_exists",
    "Verif.MetalCoop.C94_half_counterexample",
    "Verif.MetalCoop.C94_padded_counterexample"
   ],
   "note": "Padded matrices abort the process on devices with Metal 4 (refuted); conflict-free scatters that follow a reduction to a half precision array are lost (refuted), so that only histories with scatters before reductions are covered. Everything else is proved."
  },
  {
   "property": "C95",
   "status": "partial",
   "theorems": [
    "Verif.GpuArr.C95_loop",
    "Verif.GpuArr.C95_init",
    "Verif.GpuArr.C95_read",
    "Verif.GpuArr.C95_write",
    "Verif.GpuArr.C95_select",
    "Verif.GpuArr.C95_out",
    "Verif.GpuArr.C95_in",
    "Verif.GpuArr.C95_store_partial",
    "Verif.GpuArr.C95_store_exists",
    "Verif.GpuArr.C95_roundtrip_partial",
    "Verif.GpuArr.C95_single_counterexample",
    "Verif.GpuArr.C95_wrap_counterexample"
   ],
   "note": "The round trip through memory is refuted for evaluated arrays of size 1 used by larger kernels, and on Metal devices for arrays with more than 2^32 elements in all; it is proved for kernels of the same size with fewer elements. The operations on local memory are proved for all lengths."
  },
  {
   "property": "C96",
   "status": "partial",
   "theorems": [
    "Verif.MetalTex.C96_upload_partial",
    "Verif.MetalTex.C96_upload_exists",
    "Verif.MetalTex.C96_download_partial",
    "Verif.MetalTex.C96_download_exists",
    "Verif.MetalTex.C96_roundtrip_partial",
    "Verif.MetalTex.C96_large_counterexample",
    "Verif.MetalTex.C96_wrapped_counterexample",
    "Verif.MetalTex.C96_lookup",
    "Verif.MetalTex.C96_lookup_mask",
    "Verif.MetalTex.C96_write"
   ],
   "note": "Refuted for textures whose channels must be separated when the number of values exceeds 2^32, and for wrapped textures with 8 bit channels; uploads and downloads are proved for all other textures, lookups and writes for all of them."
  },
  {
   "property": "C97",
   "status": "partial",
   "theorems": [
    "Verif.OptixCoop.C97_inputs",
    "Verif.OptixCoop.C97_render",
    "Verif.OptixCoop.C97_render_exists",
    "Verif.OptixCoop.C97_declared",
    "Verif.OptixCoop.C97_matvec",
    "Verif.OptixCoop.C97_pack",
    "Verif.OptixCoop.C97_literal",
    "Verif.OptixCoop.C97_unpack",
    "Verif.OptixCoop.C97_accum",
    "Verif.OptixCoop.C97_copy_partial",
    "Verif.OptixCoop.C97_copy_counterexample"
   ],
   "note": "Refuted for resizing vectors with more than 64 components; everything else is proved for all lengths."
  },
  {
   "property": "C98",
   "status": "partial",
   "theorems": [
    "Verif.Green.C98_count_partial",
    "Verif.Green.C98_granted",
    "Verif.Green.C98_count_counterexample",
    "Verif.Green.C98_run",
    "Verif.Green.C98_leave",
    "Verif.Green.C98_release_partial",
    "Verif.Green.C98_release_counterexample"
   ],
   "note": "Refuted for requests close to 2^32 and for releasing contexts with all multiprocessors of the device; proved for other requests and contexts, and for all histories of activations."
  },
  {
   "property": "C99",
   "status": "partial",
   "theorems": [
    "Verif.Reorder.C99_noop",
    "Verif.Reorder.C99_values",
    "Verif.Reorder.C99_accepted",
    "Verif.Reorder.C99_scope",
    "Verif.Reorder.C99_refs_partial",
    "Verif.Reorder.C99_refs_counterexample"
   ],
   "note": "Reference counts are refuted when the array of variables moves during the call, and proved otherwise; everything else is proved for all states."
  }
 ]
}