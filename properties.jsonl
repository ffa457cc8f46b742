{"id": "C01", "title": "Registered instances have distinct live IDs that resolve back to them", "statement": "After jit_registry_put() returned ID k for pointer p in a domain, and until p is removed or the domain entries are cleared, k is nonzero, no other live pointer of the same (variant, domain) has ID k, jit_registry_id(p) == k and jit_registry_ptr(variant, domain, k) == p. Registering p twice raises and changes nothing.", "quantifier": "all finite sequences of put/remove/clear calls on any number of variants, domains and pointers", "why_tests_cant": "A test exercises a handful of histories; the claim is about every interleaving of calls, and a bug typically needs a particular reuse pattern to show up.", "anchors": ["src/registry.cpp: jitc_registry_put, jitc_registry_remove, jitc_registry_id, jitc_registry_ptr, jitc_registry_clear", "src/registry.h"]}
{"id": "C02", "title": "The registry ID bound is tight and freed IDs are reused lowest-first", "statement": "jit_registry_id_bound(variant, domain) is the largest ID of a currently live instance of the domain (0 if none), and jit_registry_put() hands out the smallest ID that is not in use among those handed out before, appending only when there is none.", "quantifier": "all put/remove histories", "why_tests_cant": "A test exercises a handful of histories; the claim is about every interleaving of calls, and a bug typically needs a particular reuse pattern to show up.", "anchors": ["src/registry.cpp: jitc_registry_put, jitc_registry_remove, jitc_registry_id_bound", "src/free_slots.h: FreeSlots"]}
{"id": "C03", "title": "Slot recycling returns the lowest free index and never hands out a live one", "statement": "The slot recycler used for variables, registry entries and weak references behaves like a mathematical set of free indices: push(i) inserts i, pop() removes and returns the minimum, empty() tells whether the set is empty.", "quantifier": "all push/pop sequences over arbitrary 32-bit indices, including indices spread over many words", "why_tests_cant": "The bitmap/cursor representation has a hidden invariant (no bit below the cursor) that only specific push-after-pop orders stress.", "anchors": ["src/free_slots.h: FreeSlots::push, FreeSlots::pop, FreeSlots::empty"]}
{"id": "C04", "title": "Live allocations never alias", "statement": "No two allocations that have been returned by jit_malloc()/jit_malloc_migrate() and not yet freed share memory, regardless of how the caches recycled blocks in between; freeing an unknown pointer raises.", "quantifier": "all histories of malloc/free/migrate/flush calls with arbitrary sizes, backends, devices and out-of-memory outcomes", "why_tests_cant": "A test exercises a handful of histories; the claim is about every interleaving of calls, and a bug typically needs a particular reuse pattern to show up.", "anchors": ["src/malloc.cpp: jitc_malloc, jitc_free, jitc_malloc_migrate, jitc_flush_malloc_cache"]}
{"id": "C05", "title": "Allocations are large enough and the descriptor encoding is lossless", "statement": "The block returned for a request of n > 0 bytes has capacity at least n, the capacity is a power of two that is a multiple of the required alignment, the capacity is < 2n or the minimum block; and (size, shared, backend, device) are recovered exactly from the packed descriptor.", "quantifier": "all sizes < 2^53, all backends and device ids", "why_tests_cant": "The rounding code is bit-twiddling over 64-bit values; boundary cases (powers of two +-1) cannot be enumerated.", "anchors": ["src/malloc.h: alloc_info_encode, alloc_info_decode", "src/malloc.cpp: round_pow2, jitc_malloc"]}
{"id": "C06", "title": "Memory statistics are exact", "statement": "After any history, the reported usage of each backend equals the total capacity of the live blocks, the reported allocated amount equals live plus cached blocks, and the high-water mark is at least every past allocated amount since the last statistics reset.", "quantifier": "all malloc/free/migrate/flush/statistics-reset histories", "why_tests_cant": "A test exercises a handful of histories; the claim is about every interleaving of calls, and a bug typically needs a particular reuse pattern to show up.", "anchors": ["src/malloc.cpp: jitc_malloc, jitc_free, jitc_malloc_migrate, jitc_flush_malloc_cache, jitc_malloc_clear_statistics"]}
{"id": "C07", "title": "Blocks freed while kernels are in flight are not recycled before the batch completes", "statement": "A block released while asynchronous work that may access it is still in flight is not returned by a later jit_malloc() until the batch that was open at the time of release has been submitted and has completed.", "quantifier": "all interleavings of malloc, free, batch submission and batch completion", "why_tests_cant": "Requires quantifying over GPU/worker completion schedules that tests do not control.", "anchors": ["src/malloc.cpp: jitc_free, free_later, free_next", "src/internal.h: ThreadState"]}
{"id": "C08", "title": "The global lock provides mutual exclusion and supports recursion", "statement": "At most one thread is inside the critical section at any time; a thread re-entering the lock does not block, and the lock becomes free exactly when the owner has released it as often as it acquired it.", "quantifier": "any number of threads, all interleavings of acquire/release/try steps including recursive acquisitions and pending-log marks", "why_tests_cant": "Schedules are unbounded; sanitizers only see the ones that ran.", "anchors": ["src/lock.h: lock_acquire, lock_release, lock_release_pending, LOCK_PENDING", "src/log.cpp"]}
{"id": "C09", "title": "Log messages are delivered exactly once, in order, and never under the lock", "statement": "Every message logged while the state lock is held is delivered to the callback exactly once, after the lock was released, in the order in which it was logged.", "quantifier": "all interleavings of logging and lock operations of any number of threads", "why_tests_cant": "Depends on schedules and on the position of log calls relative to recursive unlocks.", "anchors": ["src/log.cpp: jitc_log_postpone, jitc_log_deliver, jit_log_flush", "src/lock.h: lock_release_pending"]}
{"id": "C10", "title": "Algebraic simplifications of integer arithmetic preserve values", "statement": "jit_var_add/sub/mul/and/or/xor/shl/shr/... on integer variables return a variable whose value in every lane equals the value of the unsimplified operation, whichever simplification rule fires.", "quantifier": "all integer types, all operand values, all patterns of literal/non-literal operands", "why_tests_cant": "Each rule is claimed for all 2^8..2^64 operand values.", "anchors": ["src/op.cpp: jitc_var_add, jitc_var_sub, jitc_var_mul, jitc_var_and, jitc_var_or, jitc_var_xor, jitc_var_shl, jitc_var_shr, jitc_var_neg, jitc_var_not"]}
{"id": "C11", "title": "Constant folding agrees with run-time evaluation of integer operations", "statement": "If all operands are literals, the folded literal equals what the generated kernel would compute for those operands.", "quantifier": "all integer types, operations and literal values for which folding has defined behaviour", "why_tests_cant": "Unbounded (2^128) operand space, and C++ promotion rules differ from kernel semantics.", "anchors": ["src/op.cpp: jitc_eval_literal, eval_add, eval_mul, eval_div, eval_mod, eval_shl, eval_shr"]}
{"id": "C12", "title": "Division and remainder by literals are strength-reduced correctly", "statement": "jit_var_div, jit_var_mod and jit_var_mul with a power-of-two (or 0/1) literal operand produce the same value as the plain operation for unsigned operands, and the signed case is only rewritten when that is exact.", "quantifier": "all operand values and all power-of-two literals of all widths", "why_tests_cant": "The value space cannot be enumerated.", "anchors": ["src/op.cpp: jitc_var_div, jitc_var_mod, jitc_var_mul, jitc_is_pow2..."]}
{"id": "C13", "title": "Comparison, mask and select simplifications preserve values", "statement": "jit_var_eq/neq/lt/le/gt/ge, select and the boolean and/or/xor/not rules return the value of the unsimplified operation in every lane.", "quantifier": "all operand values and literal patterns, integer and boolean types", "why_tests_cant": "Rule soundness is a statement over all values.", "anchors": ["src/op.cpp: jitc_var_eq, jitc_var_neq, jitc_var_lt, jitc_var_select"]}
{"id": "C14", "title": "Comparing a floating point variable with itself respects NaN", "statement": "jit_var_eq(x, x) and jit_var_neq(x, x) have the IEEE-754 value for every x.", "quantifier": "all float bit patterns of all widths", "why_tests_cant": "NaN payloads are a set of 2^24/2^53 patterns; the rule is about all of them.", "anchors": ["src/op.cpp: jitc_var_eq, jitc_var_neq"]}
{"id": "C15", "title": "Local value numbering only merges equal computations", "statement": "Whenever creating a variable returns an already existing index, the existing variable has the same kind, type, size, operands, literal and scope; variables that differ in one of them get different indices, and side-effect or dirty nodes are never merged.", "quantifier": "all histories of variable creation, release and recycling", "why_tests_cant": "A test exercises a handful of histories; the claim is about every interleaving of calls, and a bug typically needs a particular reuse pattern to show up.", "anchors": ["src/var.cpp: jitc_var_new, jitc_lvn_put, jitc_lvn_drop", "src/internal.h: VariableKey"]}
{"id": "C16", "title": "Reference counting: no use-after-free, no leak", "statement": "A variable stays alive as long as the user or another live variable references it, and all variables are released when all user references are gone.", "quantifier": "all histories of node creation, inc_ref, dec_ref over arbitrary DAGs", "why_tests_cant": "A test exercises a handful of histories; the claim is about every interleaving of calls, and a bug typically needs a particular reuse pattern to show up.", "anchors": ["src/var.cpp: jitc_var_inc_ref, jitc_var_dec_ref, jitc_var_free, jitc_var_new"]}
{"id": "C17", "title": "Weak references never resolve to a different variable", "statement": "A weak (index, counter) reference taken when variable v was alive resolves to v while v is alive and to nothing afterwards, even if the index is recycled.", "quantifier": "all histories with fewer than 2^32 recyclings of the same slot", "why_tests_cant": "A test exercises a handful of histories; the claim is about every interleaving of calls, and a bug typically needs a particular reuse pattern to show up.", "anchors": ["src/var.cpp: jitc_var_free, WeakRef", "src/internal.h: WeakRef"]}
{"id": "C18", "title": "Scope compaction preserves the order of scopes", "statement": "Compacting scope counters keeps the relative order (and equality) of the scopes of all live variables and of the current scope of each thread.", "quantifier": "all sets of live variables and scope values", "why_tests_cant": "Compaction only triggers after 2^32 scopes in practice.", "anchors": ["src/var.cpp: jitc_compact_scopes, jitc_new_scope"]}
{"id": "C19", "title": "Kernels evaluate every dependency before its use and exactly once", "statement": "In the instruction sequence generated for one jit_eval(), each scheduled variable appears exactly once per kernel and after all variables it depends on.", "quantifier": "all expression DAGs, sizes and root sets", "why_tests_cant": "DAG shapes are unbounded.", "anchors": ["src/eval.cpp: jitc_var_traverse, jitc_visit_new_gen, jitc_eval_impl"]}
{"id": "C20", "title": "Scheduling groups variables by launch size without losing or reordering any", "statement": "The schedule is a permutation of the traversed variables, sorted by decreasing size and, within a size, increasing scope, preserving the traversal order among equals, regardless of which sorting path (bucket or comparison) is taken.", "quantifier": "all schedules with any number of distinct (size, scope) keys", "why_tests_cant": "The two code paths switch at 32 distinct keys; inputs are unbounded.", "anchors": ["src/eval.cpp: jitc_schedule_sort"]}
{"id": "C21", "title": "Parallel CPU launches cover every element exactly once", "statement": "A launch over n elements partitions [0, n) into disjoint blocks: every index in [0,n) is processed by exactly one task, and no task touches an index >= n.", "quantifier": "all sizes, core counts, packet sizes and block-size settings without 32-bit wrap-around; plus a characterisation of the wrap-around case", "why_tests_cant": "Partition arithmetic has boundary cases depending on three runtime parameters.", "anchors": ["src/llvm_ts.cpp: LLVMThreadState::launch"]}
{"id": "C22", "title": "Block reductions return the reduction of each block", "statement": "jit_block_reduce(op, size, block_size) writes ceil(size/block_size) values, the i-th being the op-reduction of input elements [i*block_size, min((i+1)*block_size, size)) whatever the number of worker threads and chunking.", "quantifier": "all sizes, block sizes, worker counts, and associative commutative operations", "why_tests_cant": "The multi-level chunking depends on the machine's core count and on sizes; unbounded.", "anchors": ["src/llvm_ts.cpp: LLVMThreadState::block_reduce", "src/llvm_red.h: create_block_reduction_2"]}
{"id": "C23", "title": "Block prefix reductions return the per-block scan", "statement": "jit_block_prefix_reduce writes, for every i, the reduction over the elements of i's block that precede i (or follow it, in reverse mode), including i iff inclusive, independent of chunking and worker count, and it never reads data outside of the array.", "quantifier": "all sizes, block sizes, exclusive/reverse flags, chunk parameters and associative operations", "why_tests_cant": "Recursive multi-level algorithm whose structure depends on core count.", "anchors": ["src/llvm_ts.cpp: LLVMThreadState::block_prefix_reduce", "src/llvm_red.h: create_block_prefix_reduction_2"]}
{"id": "C24", "title": "Boolean reductions treat the padded tail as neutral", "statement": "jit_all / jit_any return the conjunction/disjunction of exactly the first n mask bytes although they operate on 4-byte words and pad the tail.", "quantifier": "all n and all mask contents", "why_tests_cant": "All lengths mod 4 and all contents.", "anchors": ["src/util.cpp: jitc_all, jitc_any", "src/init.cpp: block_reduce_bool"]}
{"id": "C25", "title": "Compress returns exactly the indices of the set mask entries in order", "statement": "jit_compress(mask, n) returns the count of true entries and writes their indices in increasing order.", "quantifier": "all masks, lengths, block sizes and worker counts", "why_tests_cant": "Depends on parallel block partition.", "anchors": ["src/llvm_ts.cpp: LLVMThreadState::compress"]}
{"id": "C26", "title": "mkperm computes a stable counting-sort permutation", "statement": "jit_block_mkperm writes a permutation of 0..size-1 that lists, group by group, the indices of each bucket in increasing order; the reported offsets describe exactly the nonempty buckets.", "quantifier": "all inputs with values < bucket_count, all task partitions", "why_tests_cant": "Permutation correctness over all inputs and all partitions.", "anchors": ["src/llvm_ts.cpp: LLVMThreadState::block_mkperm"]}
{"id": "C27", "title": "Expanded (replicated) reductions collapse to the intended value", "statement": "Reducing an array that was replicated k times for scatter-reductions yields in slot i the op-combination of the k copies of slot i and leaves no slot out.", "quantifier": "all sizes, replication factors, associative/commutative operations", "why_tests_cant": "Arithmetic partition of ranges; unbounded.", "anchors": ["src/llvm_ts.cpp: LLVMThreadState::reduce_expanded", "src/llvm_red.h: reduce_expanded_impl"]}
{"id": "C28", "title": "Folding batch dimensions of a matrix product preserves the result", "statement": "jit_batched_gemm computes the same output for every batch description whether or not batch/reduction dimensions are dropped or folded into M or K.", "quantifier": "all dimensions, extents, strides, matrices over any commutative semiring", "why_tests_cant": "Stride/extents combinations are unbounded.", "anchors": ["src/util.cpp: jitc_batched_gemm"]}
{"id": "C29", "title": "Decimal formatting of integers is exact", "statement": "The string buffer's unsigned/signed decimal formatter writes exactly the canonical decimal digits (no leading zeros) of its argument.", "quantifier": "all 32- and 64-bit values", "why_tests_cant": "2^64 values; the code uses fixed-point multiplication tricks.", "anchors": ["src/strbuf.cpp: w_u32, w_u64, digit_pairs"]}
{"id": "C30", "title": "Hexadecimal formatting of integers is exact", "statement": "The hexadecimal formatters write exactly the hexadecimal digits of their argument (shortest form, resp. fixed width form).", "quantifier": "all 64-bit values", "why_tests_cant": "2^64 values.", "anchors": ["src/strbuf.cpp: w_x64, w_q64"]}
{"id": "C31", "title": "The string buffer never overflows and stays NUL-terminated", "statement": "After any sequence of put/fmt/rewind/clear/... operations the buffer content equals the concatenation of what was written, is followed by a zero byte, and all writes stay within the allocated capacity.", "quantifier": "all operation sequences and string lengths", "why_tests_cant": "Growth boundary cases depend on the full history.", "anchors": ["src/strbuf.cpp: StringBuffer::put, expand, rewind, move_suffix"]}
{"id": "C32", "title": "The formatter's worst-case bound is safe", "statement": "The number of bytes written by a format call never exceeds the bound that was reserved before formatting.", "quantifier": "all format strings and argument lists", "why_tests_cant": "The bound is an inequality over all formats.", "anchors": ["src/strbuf.cpp: fmt_bound"]}
{"id": "C33", "title": "Precomputed division by an invariant is exact", "statement": "The magic-number divisor object returns the quotient and remainder of every 32-bit dividend by every nonzero 32-bit divisor.", "quantifier": "all 2^64 pairs", "why_tests_cant": "2^64 pairs, the classic source of off-by-one bugs.", "anchors": ["src/common.h: divisor"]}
{"id": "C34", "title": "Instance data records of virtual calls do not overlap", "statement": "The per-instance data block layout computed for a virtual function call assigns each captured value a slot that is aligned to its size, inside the record, and disjoint from all other slots. Vector loads generated for it are aligned to their size, stay within the record, and load each value into its place.", "quantifier": "all lists of captured values and types", "why_tests_cant": "Layouts depend on the multiset of captured types, which is unbounded.", "anchors": ["src/call.cpp: jitc_call_layout_instance"]}
{"id": "C35", "title": "Virtual calls and getters find the data of their instance", "statement": "The packed (data offset, callable index) entries decode to the values which were encoded, and lane instance id 0 maps to the null entry. After the call data was uploaded, the dispatch table used by each call in the kernel holds the entries of its instances, the data blocks hold the captured values, and getter tables hold the values of the instances, however calls and getters are nested and mixed.", "quantifier": "all offsets and callable counts within 32 bits, all sets of calls and getters of a kernel, all schedules of the upload", "why_tests_cant": "Encoding correctness over the full range.", "anchors": ["src/call.cpp: jitc_var_call_upload"]}
{"id": "C36", "title": "The on-disk kernel cache is crash-safe", "statement": "Whatever the crash point of a writer and however many processes write concurrently, loading a kernel either misses or returns exactly the kernel which was stored for that source.", "quantifier": "all crash points, interleavings of writers/readers, pre-existing or corrupted files", "why_tests_cant": "Crash points and interleavings are not under test control.", "anchors": ["src/io.cpp: jitc_kernel_load, jitc_kernel_write"]}
{"id": "C37", "title": "Cache eviction respects its limit and removes oldest entries first", "statement": "A sweep deletes nothing while the total size is within the limit; otherwise it deletes oldest-first, stops as soon as the total is below the target and never deletes a newer entry while an older one is kept.", "quantifier": "all directory contents, sizes, timestamps and limits", "why_tests_cant": "Unbounded directory contents.", "anchors": ["src/io.cpp: cache sweep"]}
{"id": "C38", "title": "Cache-size strings are parsed exactly, saturating on overflow", "statement": "The cache size parser returns digits times the suffix factor, saturates instead of wrapping, and rejects malformed strings.", "quantifier": "all strings", "why_tests_cant": "Unbounded strings; overflow boundary.", "anchors": ["src/io.cpp: cache_parse_size"]}
{"id": "C39", "title": "Half precision conversion is exact/correctly rounded", "statement": "float16 -> float32 is exact for every half value; float32 -> float16 yields the nearest half (ties to even), preserving NaN-ness, infinities and sign.", "quantifier": "all 2^16 and 2^32 bit patterns", "why_tests_cant": "The rounding tricks rely on FP multiplication; 2^32 patterns by proof instead of enumeration.", "anchors": ["include/drjit-core/half.h: float16_to_float32_fallback, float32_to_float16_fallback"]}
{"id": "C40", "title": "Gathering from an unevaluated expression equals evaluating and then gathering", "statement": "If jit_var_gather rewrites a gather from an expression into the same expression evaluated at permuted indices, the result equals the gather from the evaluated array (masked lanes give zero).", "quantifier": "all expression DAGs over supported nodes, all indices and masks", "why_tests_cant": "DAGs are unbounded.", "anchors": ["src/op.cpp: jitc_var_gather, jitc_var_reindex"]}
{"id": "C41", "title": "Loop state elimination preserves loop results", "statement": "Loop variables which are optimised away (invariant, unchanged or equal literals) have the same final value as in the unoptimised loop for every trip count.", "quantifier": "all loop bodies, initial states, trip counts", "why_tests_cant": "Induction over the number of iterations.", "anchors": ["src/loop.cpp: jitc_var_loop_end"]}
{"id": "C42", "title": "Conditional output elimination preserves values", "statement": "Outputs of symbolic conditionals that are elided because both branches agree equal the selected value in every lane.", "quantifier": "all predicates and branch values", "why_tests_cant": "All lanes/values.", "anchors": ["src/cond.cpp: jitc_var_cond_end"]}
{"id": "C43", "title": "Local arrays behave like functional arrays despite copy elision", "statement": "Reads of a thread-local array variable see exactly the writes that precede them in that variable's history, whether or not the storage is shared with a predecessor.", "quantifier": "all sequences/DAGs of array create/write/read", "why_tests_cant": "Copy elision decision depends on the full graph.", "anchors": ["src/array.cpp: jitc_array_read, jitc_array_write, jitc_process_array_op"]}
{"id": "C44", "title": "Mask stack: active mask is the innermost pushed mask", "statement": "The mask applied to side effects is the conjunction with the top of the mask stack; push/pop are LIFO and balanced, and errors leave the stack unchanged.", "quantifier": "all push/pop sequences", "why_tests_cant": "A test exercises a handful of histories; the claim is about every interleaving of calls, and a bug typically needs a particular reuse pattern to show up.", "anchors": ["src/var.cpp: jitc_var_mask_push, jitc_var_mask_pop, jitc_var_mask_apply"]}
{"id": "C45", "title": "Reductions of literals equal reductions of the materialised array", "statement": "jit_var_block_reduce / jit_var_reduce / jit_var_block_prefix_reduce of a literal equal the result of the same reduction on the evaluated array.", "quantifier": "all sizes, block sizes, literal values, operations", "why_tests_cant": "All sizes and values.", "anchors": ["src/var.cpp: jitc_var_block_reduce, jitc_var_block_prefix_reduce, jitc_var_reduce_scalar_add, jitc_var_reduce_scalar_mul"]}
{"id": "C46", "title": "Tile, repeat and reverse are the documented index maps", "statement": "tile(x,k)[i] = x[i mod n], repeat(x,k)[i] = x[i div k], reverse(x)[i] = x[n-1-i], with the documented sizes and no out-of-bounds access.", "quantifier": "all sizes and counts", "why_tests_cant": "All sizes.", "anchors": ["src/var.cpp: jitc_var_tile, jitc_var_repeat, jitc_var_reverse"]}
{"id": "C47", "title": "The public block prefix reduction honours its documented argument order", "statement": "jit_block_prefix_reduce(backend, type, op, block_size, size, ...) performs a scan over size elements in blocks of block_size.", "quantifier": "all sizes and block sizes", "why_tests_cant": "Holds for all pairs or not at all; the test-suite never calls the raw entry point.", "anchors": ["src/api.cpp: jit_block_prefix_reduce", "include/drjit-core/jit.h: jit_block_prefix_reduce", "src/util.cpp: jitc_block_prefix_reduce"]}
{"id": "C48", "title": "Scatter does not modify values observable through other references", "statement": "After jit_var_scatter(target, ...) the returned variable contains the scattered data, while every other reference to the old target still reads the old contents.", "quantifier": "all aliasing patterns/reference counts", "why_tests_cant": "A test exercises a handful of histories; the claim is about every interleaving of calls, and a bug typically needs a particular reuse pattern to show up.", "anchors": ["src/op.cpp: jitc_var_scatter"]}
{"id": "C49", "title": "Evaluation executes side effects of a thread in program order within a size class", "statement": "Tasks are executed grouped by size; within one size computed values precede side effects and side effects keep program order.", "quantifier": "all lists of scheduled variables and side effects", "why_tests_cant": "Unbounded lists.", "anchors": ["src/eval.cpp: jitc_eval_impl"]}
{"id": "C50", "title": "memset/aggregate write exactly the requested bytes", "statement": "jit_memset_async fills the range with the repeated pattern and touches nothing else; aggregate writes each entry at its offset.", "quantifier": "all sizes, patterns, entry lists", "why_tests_cant": "All sizes/patterns.", "anchors": ["src/llvm_ts.cpp: memset_async, aggregate"]}
{"id": "C51", "title": "Instance hashing is collision free before bucketing", "statement": "The 32-bit finaliser used for hash tables is a bijection: distinct 32-bit keys have distinct hashes.", "quantifier": "all 2^32 keys", "why_tests_cant": "2^64 pairs.", "anchors": ["src/hash.h: fmix32"]}
{"id": "C52", "title": "Virtual call bucketing partitions the lanes", "statement": "jit_var_call_reduce returns buckets such that each lane with a non-null live instance is in exactly one bucket, that of its instance.", "quantifier": "all instance index arrays", "why_tests_cant": "All arrays.", "anchors": ["src/call.cpp: jitc_var_call_reduce"]}
{"id": "C53", "title": "Kernel parameter slots are assigned uniquely", "statement": "In each assembled kernel every input/output variable gets its own parameter slot, the reserved slots are never reused and the table passed at launch has the pointer of variable v at v's slot.", "quantifier": "all schedules", "why_tests_cant": "All schedules.", "anchors": ["src/eval.cpp: jitc_assemble"]}
{"id": "C54", "title": "Visit stamps never confuse different traversals", "statement": "A variable is skipped by a graph traversal only if it was visited during the same traversal, also across the wrap-around of the 31-bit generation counter.", "quantifier": "all sequences of traversals including counter wrap-around", "why_tests_cant": "Needs 2^31 traversals.", "anchors": ["src/eval.cpp: jitc_visit_new_gen, visit_gen"]}
{"id": "C55", "title": "Operations do not change the attributes of their operands", "statement": "Creating, resizing or releasing a variable leaves kind, type, size and contents of every other variable that the caller holds unchanged; in particular jit_var_resize(i, n) returns a variable of size n and variable i keeps its size.", "quantifier": "all histories and operands", "why_tests_cant": "Depends on the reference counts left behind by the history.", "anchors": ["src/var.cpp: jitc_var_new, jitc_var_resize", "src/api.cpp: jit_var_resize"]}
{"id": "C56", "title": "Memory migration returns a live block and keeps the others", "statement": "jit_malloc_migrate() of a live pointer either raises or returns a pointer to a live block of at least the same size on the requested backend (when the host is requested: host-readable memory of the source backend is also allowed). With move=0 the source stays live and is disjoint from the copy; with move=1 it is no longer live unless the same pointer is returned. All other live blocks are unaffected. Migrating directly between two distinct non-host backends, or an unknown pointer, raises and changes nothing.", "quantifier": "for every history of allocator calls, every live block, every source/destination backend, move flag, device and every answer of the operating system", "why_tests_cant": "the outcome depends on the backend pair, the shared flag, the device, the free list contents and allocation failures; tests exercise a few backend pairs on one machine", "anchors": ["src/malloc.cpp: jitc_malloc_migrate, jitc_malloc, jitc_free"]}
{"id": "C57", "title": "Half precision products are correctly rounded", "statement": "Multiplying two half precision numbers (through single precision, i.e. with two successive roundings) yields the half nearest to the exact product, ties to even, with the sign being the exclusive or of the signs; NaN, infinities and 0*inf follow IEEE 754. Negation flips the sign bit only.", "quantifier": "all pairs of half precision bit patterns, and every IEEE 754 single precision multiplication", "why_tests_cant": "Double rounding errors would show only on few of the 2^32 pairs.", "anchors": ["include/drjit-core/half.h: half::operator*, half::operator-, float16_to_float32_fallback, float32_to_float16_fallback"]}
{"id": "C58", "title": "The kernel cache is swept at most once per hour", "statement": "Two sweeps of the kernel cache directory are at least one hour apart, however many processes use it.", "quantifier": "all interleavings of processes and all clock readings", "why_tests_cant": "The race is between processes.", "anchors": ["src/io.cpp: jitc_cache_sweep"]}
{"id": "C59", "title": "Atomic operations with a result are executed once", "statement": "The operation behind the result of jit_var_scatter_inc, jit_var_scatter_exch or jit_var_scatter_cas is executed by at most one kernel; an attempt to compute it again raises an exception.", "quantifier": "all computation graphs, sets of evaluated variables and sequences of evaluations", "why_tests_cant": "The graph decides in how many kernels a variable ends up; graphs are unbounded.", "anchors": ["src/eval.cpp: jitc_var_traverse, jitc_eval_impl", "src/op.cpp: jitc_var_scatter_inc, jitc_var_scatter_exch, jitc_var_scatter_cas", "src/llvm_scatter.cpp: consumed"]}
{"id": "C60", "title": "A virtual function call runs the callable of each active lane exactly once", "statement": "A virtual function call on the LLVM backend terminates, calls every callable that is needed by an active lane once, for exactly the lanes that refer to it; each active lane receives the result of its own callable, and lanes that are masked or refer to the null instance receive zero.", "quantifier": "all vector widths, instance arrays, masks, dispatch tables and callables", "why_tests_cant": "All arrays and callables.", "anchors": ["src/llvm_eval.cpp: jitc_var_call_assemble_llvm"]}
{"id": "C61", "title": "Evaluation only changes where values are stored", "statement": "jit_eval (and every implicit evaluation) either fails, and then leaves every variable as it was, or it succeeds, and then all scheduled variables that are still referenced are stored in memory. In both cases the caller's references stay valid and keep their size and type, and the queue of side effects is empty. A successful evaluation keeps the values of all variables the caller holds, unless they depend on arrays with pending writes. Histories of operations and evaluations neither leak variables or memory nor free memory twice.", "quantifier": "all histories of operations, evaluations and failed evaluations, all schedules, computation graphs and memory contents", "why_tests_cant": "The histories and graphs are unbounded; a leak or a wrong value may need a particular combination of shared subexpressions, side effects and reference counts.", "anchors": ["src/eval.cpp: jitc_eval_impl, jitc_var_traverse, jitc_elide_scatter, jitc_assemble, jitc_run", "src/var.cpp: jitc_var_eval, jitc_var_mark_side_effect"]}
{"id": "C62", "title": "A replayed recording computes what the function computes", "statement": "If a function was recorded with jit_freeze_start / jit_freeze_stop, then jit_freeze_replay with other arguments returns arrays with the types, sizes and contents that a direct execution of the function with these arguments returns, and it changes arguments that the function modifies in the same way. It neither fails nor accesses memory that it does not own.", "quantifier": "all functions (sequences of kernel launches, fills, copies, reductions, compressions, permutations, matrix products, parameter blocks of indirect calls and releases of arrays, with arbitrary kernels), all sizes and contents of the arguments of the recorded call and of the replay, all placements of arrays in memory including the reuse of addresses", "why_tests_cant": "The recorder tracks arrays by their addresses and infers all sizes from those of the inputs; whether this inference is right depends on the whole function, on which addresses the allocator reuses and on the sizes in two different calls. Tests sample a few functions and sizes.", "anchors": ["src/record_ts.cpp: Recording::replay, RecordThreadState::record_launch, Recording::replay_launch, jitc_freeze_start, jitc_freeze_stop, jitc_freeze_replay", "src/record_ts.h: Recording, Operation, AccessInfo"]}
{"id": "C63", "title": "A dry run tells whether a recording can be replayed", "statement": "jit_freeze_dry_run changes nothing: it allocates, reads and writes no array memory and never terminates the process. If it accepts, then jit_freeze_replay with the same arguments does not fail because of sizes that do not fit and computes all array sizes as the dry run predicted; if it rejects, then the replay would indeed have failed.", "quantifier": "all recorded functions (sequences of the modelled backend calls), all kernels, all sizes and contents of the arguments of the recorded call and of the replay, all placements in memory", "why_tests_cant": "The dry run and the replay share the code that infers sizes but deviate at many places (null data pointers, sizes that depend on contents, early returns); agreement must hold for every operation sequence and every combination of sizes.", "anchors": ["src/record_ts.cpp: jitc_freeze_dry_run, Recording::replay, Recording::replay_* (dry_run branches), ReplayVariable::alloc, requires_dry_run"]}
{"id": "C64", "title": "A replay owns exactly the memory of its new results", "statement": "After jit_freeze_replay, the allocated blocks of memory are those that were allocated before, and one block for each new array that it returns. It does not leak temporary memory, does not release or replace memory of its arguments or of other arrays, and no two returned arrays own the same block. Arrays that are not reachable from the arguments keep their contents.", "quantifier": "all recorded functions, all kernels, all arguments of the replay, all placements in memory", "why_tests_cant": "Leaks and double frees depend on which slots are temporaries, inputs or outputs and on reallocations that are triggered by the sizes of a particular replay; tests observe a few functions and usually not the allocator.", "anchors": ["src/record_ts.cpp: ReplayVariable::alloc, ReplayVariable::free, Recording::replay, RecordThreadState::add_output, jitc_freeze_replay"]}
{"id": "C65", "title": "An accepted recording depends on nothing but its arguments", "statement": "If jit_freeze_stop accepts a recording, then the recorded function only used its arguments and arrays that it computed itself; a function that uses any other array (a global variable, a captured array) is rejected with an exception rather than recorded with stale contents or addresses.", "quantifier": "all sequences of backend calls, all sets of other arrays that exist, all placements in memory including the reuse of addresses of released arrays", "why_tests_cant": "Dependencies are detected through addresses, lazily in the case of parameter blocks, and addresses are reused after arrays are released; a missed dependency shows only in later replays with other contents of the captured array.", "anchors": ["src/record_ts.cpp: RecordThreadState::capture_variable, get_variable, has_variable, add_param, record_aggregate, record_block_mkperm, notify_free, Recording::validate, jitc_freeze_stop"]}
{"id": "C66", "title": "Concurrent scatter-reductions lose no update", "statement": "After a kernel with jit_var_scatter(target, value, index, mask, op) on the LLVM backend, every entry of an integer array equals its initial value combined (op = add, min, max, and, or) with the values of all active lanes that refer to it, each exactly once; inactive lanes contribute nothing and nothing else changes. For other operations (sums of floats) the result is that of some order of the lanes.", "quantifier": "all integer types and operations, all vector widths, all numbers of threads and packets, all indices (with any conflicts within a packet and between threads), masks, values and addresses, all interleavings of the instructions of the threads, including outdated results of relaxed loads", "why_tests_cant": "Lost updates depend on the schedule of threads and on conflicts between lanes; the shortcut for minima and maxima relies on stale loads; the pre-reduction compares truncated addresses.", "anchors": ["src/llvm_scatter.cpp: jitc_llvm_append_reduce_op_direct, jitc_llvm_append_reduce_op_local, jitc_llvm_render_atomic, jitc_llvm_render_scatter_reduce", "src/var.cpp: jitc_reduce_identity"]}
{"id": "C67", "title": "Scatter-increments hand out every number once", "statement": "jit_var_scatter_inc on the LLVM backend: the active lanes that increment an entry with value m receive the numbers m, m+1, ..., each exactly once, the entry grows by the number of these lanes, inactive lanes receive zero and nothing else changes.", "quantifier": "all vector widths up to 32, all numbers of threads and packets, indices with any conflicts, masks, initial values (with wrap-around) and interleavings", "why_tests_cant": "Duplicates or gaps arise only from particular conflicts between lanes and schedules of threads.", "anchors": ["src/llvm_scatter.cpp: jitc_llvm_render_scatter_inc"]}
{"id": "C68", "title": "Exchange and compare-exchange of array entries are atomic", "statement": "jit_var_scatter_exch and jit_var_scatter_cas on the LLVM backend: the active lanes take effect one after another in some order. For exchanges every value that was in the array or is written is returned exactly once or remains. For compare-exchange, success is reported exactly if the previous value was the expected one, and of several lanes that try to replace the same value exactly one succeeds. Inactive lanes receive zero and nothing else changes.", "quantifier": "all value types, vector widths, numbers of threads and packets, indices with any conflicts, masks, values and interleavings", "why_tests_cant": "Two winners or a lost value need a particular schedule of threads.", "anchors": ["src/llvm_scatter.cpp: jitc_llvm_render_scatter_exch, jitc_llvm_render_scatter_cas"]}
{"id": "C69", "title": "Packet gathers equal separate gathers", "statement": "jit_var_gather_packet(n, source, index, mask, out) on the LLVM backend returns n arrays, the i-th of which holds source[n*index + i] for active lanes and zero for inactive lanes, exactly as n separate gathers do; only entries of active lanes are accessed. In debug mode, lanes whose index refers to a group outside of the array are switched off.", "quantifier": "all packet sizes n, vector widths, element types, array sizes, addresses, indices and masks", "why_tests_cant": "The generated code is different for every packet size and vector width (transpositions by shuffles, recursive splitting, several partial packets), and indices near the limits of 32 bits are not tested.", "anchors": ["src/llvm_packet.cpp: jitc_llvm_render_gather_packet, gather_packet_recursive, jitc_llvm_permute_n", "src/op.cpp: jitc_var_gather_packet, jitc_var_check_bounds"]}
{"id": "C70", "title": "Packet scatters equal separate scatters", "statement": "After a kernel with jit_var_scatter_packet(n, target, values, index, mask, op, mode) on the LLVM backend, entry n*index + i of the target has been replaced by, or combined with, the i-th value of every active lane, in the order of the lanes, as by n separate scatters; inactive lanes have no effect, only entries of the target are accessed, and nothing else changes.", "quantifier": "all even packet sizes n, vector widths, element types, array sizes, addresses, indices (with any conflicts within a thread), masks and values, all numbers of threads and interleavings of their accesses, with and without debug mode, for expanded and other targets", "why_tests_cant": "The generated code is different for every packet size and vector width, alignment matters only on some processors and for some addresses, and conflicts depend on the schedule.", "anchors": ["src/llvm_packet.cpp: jitc_llvm_render_scatter_packet, scatter_packet_recursive, jitc_llvm_permute_n", "src/op.cpp: jitc_var_scatter_packet, jitc_var_infer_reduce_mode, jitc_var_check_bounds"]}
{"id": "C71", "title": "Recorded functions receive everything that their code refers to", "statement": "When a kernel contains a call recorded with jit_var_call(), the code of each of its functions refers only to names that exist: every argument it uses is passed by the caller, who has computed it before the call; every evaluated variable or pointer it uses has exactly one slot in the data of the instance; and the function's signature declares the instance identifier, the thread index and the data pointers whenever they are used, also by nested calls. Nothing else is captured, all captured variables are scalars, and the analysis ends for bodies with loops.", "quantifier": "all computation graphs with any nesting of recorded loops and calls, all numbers of instances, arguments, results and captured variables, all subsets of results that are still alive when the code is generated, all slot orders", "why_tests_cant": "The set of captured variables is determined by one traversal when the call is recorded, and the code by another one much later, with different rules for loops, nested calls, dead results and simplified arguments; a mismatch aborts the process or yields invalid code only for particular graphs.", "anchors": ["src/call.cpp: jitc_var_call, jitc_var_call_analyze, jitc_call_bind_slots, jitc_call_slot_rel_offset, jitc_var_call_assemble", "src/eval.cpp: jitc_var_traverse, jitc_assemble_func", "src/llvm_eval.cpp: jitc_llvm_assemble_func"]}
{"id": "C72", "title": "Lanes beyond the end of a computation do nothing", "statement": "The LLVM backend processes arrays in packets, and the last packet may extend beyond the end of the array. A masked operation (scatter, gather, call) of a kernel with N elements takes effect exactly once for each element whose mask is set, and never in a lane beyond the end: for literal masks, masks in memory with arbitrary bytes behind their end, masks combined with the mask stack by jit_var_mask_apply(), and masks that have been evaluated and loaded again.", "quantifier": "all sizes, vector widths, block sizes and numbers of threads; all mask arrays and memory contents behind them; all sequences of mask_default, mask_apply, mask_push, mask_pop and evaluations; constant propagation on or off", "why_tests_cant": "Whether a lane beyond the end is active depends on how the mask was simplified, on garbage behind the end of evaluated masks and on the division into tasks; an effect in such a lane writes to memory that a test normally does not look at.", "anchors": ["src/var.cpp: jitc_var_mask_apply, jitc_var_mask_default, jitc_var_mask_push, jitc_var_resize", "src/op.cpp: jitc_var_and", "src/llvm_eval.cpp: Counter, DefaultMask, loads and stores of packets", "src/llvm_ts.cpp: LLVMThreadState::launch", "include/drjit-core/jit.h: jit_var_mask_push, jit_var_mask_apply"]}
{"id": "C73", "title": "Packing matrices copies exactly their entries", "statement": "jit_coop_vec_pack_matrices() copies every entry of each matrix from its position in the input buffer (offset, row stride) to its position in the output buffer, whatever the order in which the tasks run, and changes no other byte of the output buffer, in particular none between the rows of a matrix with padding. It reads and writes nothing else. The descriptors computed by jit_coop_vec_compute_layout(), each placed at the end of the preceding one, are valid outputs, and converting back restores all entries.", "quantifier": "all numbers of matrices, shapes, strides, offsets, element sizes, buffer contents and interleavings of the tasks", "why_tests_cant": "Tasks run concurrently on one buffer, with two code paths (contiguous or row by row) selected by strides; tests use few shapes and cannot cover interleavings, interleaved output matrices or large offsets.", "anchors": ["src/llvm_ts.cpp: LLVMThreadState::coop_vec_pack", "src/coop_vec.cpp: jitc_coop_vec_pack_matrices, jitc_coop_vec_compute_layout", "include/drjit-core/jit.h: MatrixDescr, jit_coop_vec_pack_matrices"]}
{"id": "C74", "title": "Matrix-vector products of cooperative vectors", "statement": "jit_coop_vec_matvec() computes, for every lane, the product of the matrix stored at the given descriptor (offset, row stride), or its transpose, with the cooperative vector plus the bias: component i is the chain of fused multiply-adds over the columns, from first to last, starting at the bias. In calls every active lane uses the matrix of its own instance. It reads only entries of the matrix and the bias, and the result has as many components as the product.", "quantifier": "all shapes, offsets, strides, memory contents, lanes, vector widths and masks, inside and outside of calls", "why_tests_cant": "Descriptors have unbounded shapes, offsets and strides; tests run small networks with tightly packed matrices.", "anchors": ["src/llvm_coop_vec.cpp: jitc_llvm_render_coop_vec (CoopVecMatVec)", "src/coop_vec.cpp: jitc_coop_vec_matvec", "include/drjit-core/jit.h: jit_coop_vec_matvec, MatrixDescr"]}
{"id": "C75", "title": "Accumulating cooperative vectors and outer products loses no contribution", "statement": "jit_coop_vec_accum() adds component i of the cooperative vector of every active lane to the entry i behind the given offset of the target, and jit_coop_vec_outer_product_accum() adds the product of component i of the first and component j of the second vector to entry (i, j) of the matrix that the descriptor specifies. Every active lane contributes exactly once, whatever the interleaving of threads, inside and outside of calls (where lanes can refer to different targets). Nothing else changes.", "quantifier": "all numbers of lanes, packets, threads, components, masks, offsets and strides, all interleavings of atomic instructions", "why_tests_cant": "Depends on the interleaving of atomic instructions of many threads, and on lanes that share targets; tests see few schedules and compare with tolerances.", "anchors": ["src/llvm_coop_vec.cpp: jitc_llvm_render_coop_vec_accum, jitc_llvm_render_coop_vec_outer_product_accum", "src/llvm_scatter.cpp: jitc_llvm_append_reduce_op_local", "include/drjit-core/jit.h: jit_coop_vec_accum, jit_coop_vec_outer_product_accum"]}
{"id": "C76", "title": "Element-wise operations on cooperative vectors act on each component, and packing loses nothing", "statement": "Arithmetic on cooperative vectors computes, in every lane, component i of the result from component i of the operands, although the library replaces additions of zero, products with one and fused multiply-adds with such operands by simpler operations, represents uniform vectors as literals, and broadcasts operands of size one. Unpacking a packed vector yields the packed variables. Conversions between element types convert the numbers.", "quantifier": "all programs (trees of literals, packed variables, loads, binary operations, fused multiply-adds), all sizes, lengths, values, number types whose operations satisfy the stated laws", "why_tests_cant": "The simplifications apply to all nested combinations of operands, sizes and values; tests cover a few expressions and values.", "anchors": ["src/coop_vec.cpp: jitc_coop_vec_pack, jitc_coop_vec_unpack, jitc_coop_vec_literal, jitc_coop_vec_load, jitc_coop_vec_binary_op, jitc_coop_vec_ternary_op", "src/llvm_coop_vec.cpp: jitc_llvm_render_coop_vec", "src/var.cpp: jitc_var_resize"]}
{"id": "C77", "title": "Dot products combine all pairs exactly once", "statement": "The dot product of two arrays of the same size is a sum of the products of all pairs of elements, each taken exactly once; with exact arithmetic it equals the mathematical value for every number of threads, every division of the work and every interleaving. All accesses are within bounds and nothing but the result changes.", "quantifier": "all sizes, contents, arithmetic, numbers of threads, schedules", "why_tests_cant": "Schedules and divisions of the work depend on the machine; the bounds of sizes at which 32 bit computations wrap are not reached by tests.", "anchors": ["src/llvm_ts.cpp: LLVMThreadState::reduce_dot", "src/llvm_red.h: reduce_dot_create", "src/llvm_ts.cpp: LLVMThreadState::block_reduce"]}
{"id": "C78", "title": "Calls execute the code of the functions that were recorded", "statement": "A kernel may call any number of functions, directly (calls with one target) or through a table (calls with several targets), in nested ways and repeatedly. Identical functions are compiled once. Whatever the functions and the setting of MergeFunctions, the kernel can be compiled, and every call executes the code of its own target.", "quantifier": "all sequences of functions of a kernel, all hash functions that distinguish their codes, both settings of MergeFunctions", "why_tests_cant": "Wrong targets arise from combinations of functions, kinds of calls and flags; tests cover a few.", "anchors": ["src/eval.cpp: jitc_assemble_func", "src/eval.h: GlobalKey, GlobalValue", "src/llvm_eval.cpp: jitc_llvm_assemble, jitc_llvm_render_call", "src/llvm_mcjit.cpp: jitc_llvm_mcjit_compile", "src/llvm_orcv2.cpp: jitc_llvm_orcv2_compile", "src/llvm_core.cpp: jitc_llvm_compile", "src/call.cpp: jitc_call_upload"]}
{"id": "C79", "title": "Compiled code is placed in disjoint, aligned memory and survives relocation", "statement": "For every sequence of requests of the compiler during the compilation of a kernel, it is given disjoint, aligned sections inside the buffer of the library; everything in between is zeroed, and nothing outside of the buffer is written. The buffer is live, is freed once, and holds ten times the size of the program. After copying the code to its final place, and after storing and reloading it from disk, every section has the same contents and alignment, and addresses of functions refer to it.", "quantifier": "all sequences of kernels, requests (sizes, alignments), results of memory allocation, addresses", "why_tests_cant": "The requests depend on the compiler and the program; misplacement shows up only for particular sizes and alignments, and failure of memory allocation is not exercised.", "anchors": ["src/llvm_memmgr.cpp: jitc_llvm_memmgr_prepare, jitc_llvm_memmgr_allocate, jitc_llvm_memmgr_shutdown", "src/llvm_core.cpp: jitc_llvm_compile", "src/io.cpp: jitc_kernel_load, jitc_kernel_write"]}
{"id": "C80", "title": "Dynamic arrays behave like lists and neither leak nor touch foreign memory", "statement": "Programs that create, copy, move, append to, erase from, resize, swap and destroy dynamic arrays of the library observe the elements of the corresponding lists. Accesses never leave a live array, no memory is freed twice, and every block of memory belongs to exactly one array; once all arrays are destroyed, all memory has been freed.", "quantifier": "all sequences of operations on any number of arrays, all element values, sizes", "why_tests_cant": "Growth, copies and aliasing interact over histories of any length; use after free often goes unnoticed.", "anchors": ["include/drjit-core/nanostl.h: drjit::vector"]}
{"id": "C81", "title": "Strings built piece by piece contain all pieces, are terminated, and neither leak nor overflow", "statement": "Programs that create, append to (any number of pieces at once, including the string itself), assign, indent, resize, swap and destroy strings of the library observe the concatenation of the pieces. All strings are terminated by zero; the upper bounds on the sizes of formatted numbers never lead to a write beyond the end; every block of memory belongs to exactly one string, and is freed when the strings are destroyed.", "quantifier": "all sequences of operations on any number of strings, all characters, numbers of pieces, sizes", "why_tests_cant": "Growth, self-reference and bounds on sizes interact over histories of any length; an overflow by one byte often goes unnoticed.", "anchors": ["include/drjit-core/nanostl.h: drjit::string, drjit::formatter"]}
{"id": "C82", "title": "Prefix reductions on CUDA devices return the per-block scan whatever the schedule of threads and thread blocks, and never deadlock", "statement": "On a CUDA device, jit_block_prefix_reduce writes, for every i, the combination of the elements of i's block that precede i (or follow it, in reverse mode), including i iff inclusive. This holds for every interleaving of threads, warps and thread blocks, including the exchange of partial results through global memory, whose 64 bit values are written in two parts. Each element is read and written by one thread only, so the operation works in place; nothing behind the result is touched. A thread block only waits for thread blocks with smaller indices.", "quantifier": "all sizes and block sizes, contents, operations, modes, and interleavings", "why_tests_cant": "The exchange between thread blocks depends on the schedule of the device; tests see a few schedules and sizes.", "anchors": ["resources/block_prefix_reduce.cuh: block_prefix_reduce", "resources/common.h: store_with_status, load_with_status", "src/cuda_ts.cpp: CUDAThreadState::block_prefix_reduce"]}
{"id": "C83", "title": "Compress on CUDA devices returns exactly the indices of the set mask entries in order, whatever the schedule", "statement": "On a CUDA device, jit_compress(mask, n) returns the number of set entries and writes their indices in increasing order, whatever the interleaving of threads, warps and thread blocks; nothing behind the indices is written, and the n entries of the mask are not modified. What is read and cleared behind the mask stays within its allocation if it was obtained from jit_malloc, and the exchange between thread blocks never leaves its scratch memory.", "quantifier": "all masks of zeros and ones, sizes and interleavings", "why_tests_cant": "The exchange between thread blocks depends on the schedule of the device; sizes close to the limit of 32 bit arithmetic are not tested.", "anchors": ["resources/compress.cuh: compress_small, compress_large, compress_large_init", "src/cuda_ts.cpp: CUDAThreadState::compress", "src/malloc.cpp: jitc_malloc"]}
{"id": "C84", "title": "Block reductions on CUDA devices reduce exactly the elements of each block", "statement": "On a CUDA device, jit_block_reduce(op, x, n, block_size) stores, for every block of block_size consecutive elements, a combination of exactly the elements of that block, each used once; the last block may be shorter. Nothing else is written. This holds whether or not the input is aligned (vector loads), for several blocks per thread block, and for blocks that are split into chunks whose results are reduced again. Kernels do not access shared memory beyond what was requested, and block sizes of zero or above n are reported.", "quantifier": "all sizes, block sizes, alignments, element types of 2, 4 and 8 bytes, reduction operations and array contents", "why_tests_cant": "The launch configuration depends on size, block size and alignment in many ways, with 32 bit arithmetic throughout; the number of passes is not bounded.", "anchors": ["resources/block_reduce.cuh: block_reduce", "resources/common.h: Vector reduce", "src/cuda_ts.cpp: CUDAThreadState::block_reduce"]}
{"id": "C85", "title": "Dot products on CUDA devices use every pair of elements exactly once", "statement": "On a CUDA device, jit_reduce_dot(x, y, n) stores a combination of exactly the n products x[i]*y[i], each used once, with fused multiplications and additions in some order, whatever the interleaving of threads within and between thread blocks; in exact arithmetic it stores the sum of the products. Nothing but the result is written, and the kernel terminates.", "quantifier": "all sizes, numbers of multiprocessors, array contents and interleavings", "why_tests_cant": "The grid depends on the device, the order of shared memory accesses on the schedule, and index arithmetic near 2^32 elements is not tested.", "anchors": ["resources/reduce_2.cuh: reduce_2, reduction_dot", "src/cuda_ts.cpp: CUDAThreadState::reduce_dot"]}
{"id": "C86", "title": "Sorting permutations on CUDA devices are correct for every schedule", "statement": "On a CUDA device, jit_block_mkperm(values, size, block_size, bucket_count, perm, offsets) stores, for each group of block_size elements, the indices of the group bucket by bucket, every index exactly once; within a bucket the indices are increasing if there are at least 128 bytes of shared memory per bucket. For a single group with offsets, it returns the number of nonempty buckets and stores one entry (bucket, start, size, 0) for each of them; otherwise it returns zero. Nothing is stored behind the outputs. The result does not depend on the order of atomic operations beyond the order within buckets.", "quantifier": "all arrays, group sizes, numbers of buckets, devices (multiprocessors, shared memory) and orders of warps, thread blocks and atomic operations", "why_tests_cant": "There are three variants of the kernels whose choice depends on the device; the order of atomic operations depends on the schedule; boundaries of groups, thread blocks and warps coincide only for particular sizes; 16 and 32 bit overflows need large numbers of buckets or groups.", "anchors": ["resources/mkperm.cuh: block_mkperm_phase_1_*, block_mkperm_phase_3, block_mkperm_phase_4_*, transpose", "src/cuda_ts.cpp: CUDAThreadState::block_mkperm, cuda_transpose", "src/internal.h: CUDADevice::get_launch_config"]}
{"id": "C87", "title": "Matrix products on CUDA devices equal the specified sums for every schedule", "statement": "On a CUDA device, jit_batched_gemm() stores for every grid point the (possibly transposed) matrix product, summed over the inner dimension and all reduction points in the documented order, for every element type, shape and batch description; it reads only entries of the operands, with aligned vector accesses, changes nothing but the result, and does not reject products that fit into memory. The result does not depend on the tile size chosen for the device or on the order in which threads run.", "quantifier": "all shapes, transpositions, batch descriptions, element types and values, devices (number of multiprocessors) and schedules of threads and thread blocks", "why_tests_cant": "The tile size depends on shape, alignment, batch size and device; boundaries of tiles, slabs and vectors are reached only for particular combinations; overflows need very large operands; the order of threads cannot be controlled.", "anchors": ["resources/gemm.cuh: gemm_load_slab, gemm_load, gemm_compute, gemm_impl", "src/cuda_ts.cpp: CUDAThreadState::batched_gemm", "src/util.cpp: jitc_batched_gemm"]}
{"id": "C88", "title": "Launches on CUDA devices process every element once; memory is filled and assembled as requested", "statement": "A kernel evaluated on a CUDA device processes every element of its arrays exactly once, for every size and every device, and launches respect the limits of CUDA. jit_memset_async() fills the region with the pattern and changes nothing else, jit_poke() stores one element, and jit_aggregate() writes every entry at its offset, for every size, pattern and list of entries, and every order of the threads; all of them end.", "quantifier": "all sizes, numbers of multiprocessors, block sizes of kernels, patterns, entry lists and interleavings of threads", "why_tests_cant": "The launch configuration has several regimes that depend on size, device and kernel; boundaries are different on every device, and sizes close to 2^32 need more memory than test machines have.", "anchors": ["src/internal.h: CUDADevice::get_launch_config", "src/cuda_ts.cpp: launch, memset_async, poke, aggregate", "src/cuda_eval.cpp: jitc_cuda_assemble", "resources/misc.cuh: fill_64, aggregate, poke_u8"]}
{"id": "C89", "title": "Atomic operations of kernels on CUDA devices combine each value exactly once", "statement": "A scatter-reduction on a CUDA device combines every element of the target with the values of exactly those lanes that are not masked and use its index, each of them once, whether values are first combined within warps or not, for packets as well as single values, and whatever lanes execute together and in which order atomic operations are executed. A scatter-increment increases each counter by the number of lanes that use it and returns consecutive numbers to them. Floating point minima and maxima are those of IEEE 754. Atomic exchange and compare-exchange return the previous value, change memory only for lanes that are not masked, and compare-exchange reports success for exactly those lanes whose value was stored.", "quantifier": "all operations, values, indices and masks, all divisions of lanes into groups that execute together, and all orders of atomic operations", "why_tests_cant": "Which lanes of a warp execute together and in which order atomic operations happen is decided by the hardware; the number of ways in which indices of 32 lanes coincide is astronomic.", "anchors": ["src/cuda_scatter.cpp: jitc_cuda_render_warp_reduce, jitc_cuda_render_scatter_reduce, jitc_cuda_render_atomic_minmax, jitc_cuda_render_scatter_inc, jitc_cuda_render_scatter_exch, jitc_cuda_render_scatter_cas", "src/cuda_packet.cpp: jitc_cuda_render_scatter_reduce_packet"]}
{"id": "C90", "title": "Packet gathers and scatters on CUDA devices equal separate ones", "statement": "On CUDA devices, a packet gather returns for each lane the elements of the packet with the given index, and zero for masked lanes; a packet scatter stores the elements of each lane that is not masked into the packet with the given index and changes nothing else. This holds for all element types, packet sizes and devices, whether packets are transferred by vector instructions or separately, and in whatever order lanes execute. All vector instructions exist, stay within their packet and are aligned.", "quantifier": "all packet sizes, element sizes, array sizes, indices, masks, values, devices with and without 32-byte accesses, all orders of stores", "why_tests_cant": "Packet sizes, element sizes and device capabilities are combined by a loop that searches for a divisor; the way in which registers are packed and unpacked differs for each combination, and conflicts depend on scheduling.", "anchors": ["src/cuda_packet.cpp: jitc_cuda_render_gather_packet, jitc_cuda_render_scatter_packet", "src/cuda_scatter.cpp: jitc_cuda_render_scatter, jitc_cuda_prepare_index", "src/cuda_eval.cpp: VarKind::Gather", "src/op.cpp: jitc_var_gather_packet, jitc_var_scatter_packet", "src/var.cpp: jitc_var_mem_map"]}
{"id": "C91", "title": "Hardware textures on CUDA devices hold the texels that were uploaded or written", "statement": "Uploading a packed buffer to a texture stores every channel of every texel of the given MIP level where lookups find it and leaves other levels unchanged; downloading returns exactly these bytes and writes nothing else. Lookups return one value per channel, in order, and zero for masked lanes. Writing to a texel changes all of its channels and nothing else. Temporary buffers are never exceeded. Textures exist as long as the handle or pending operations that use them, and are released once.", "quantifier": "all numbers of channels, formats, dimensions, MIP levels, contents, positions and masks, and all histories of lookups, writes and destruction", "why_tests_cant": "Textures are split into parts of at most four channels with padding that depends on the number of channels, and copied by strided copies whose parameters depend on all dimensions; lifetime depends on the order in which variables are freed.", "anchors": ["src/tex.h: TextureBase", "src/cuda_tex.cpp: jitc_cuda_tex_memcpy, jitc_cuda_tex_stage, jitc_cuda_tex_alloc_staging_area, jitc_cuda_tex_lookup, jitc_cuda_tex_bilerp_fetch, jitc_cuda_tex_write, jitc_cuda_tex_destroy, release_texture", "src/cuda_eval.cpp: VarKind::TexLookup, VarKind::TexWrite", "include/drjit-core/texture.h: jit_tex_memcpy_d2t, jit_tex_memcpy_t2d, jit_tex_lookup, jit_tex_write, jit_tex_destroy"]}
{"id": "C92", "title": "Atomic operations of kernels on Metal devices combine each value exactly once", "statement": "A scatter-reduction on a Metal device combines every element of the target with the values of exactly those lanes that are not masked and use its index, each of them once, whether values are first combined within SIMD groups or not, for packets as well as single values, and whatever lanes execute together and in which order atomic operations are executed. A scatter-increment increases each counter by the number of lanes that use it and returns consecutive numbers to them. Floating point minima and maxima are those of IEEE 754. Atomic exchange and compare-exchange return the previous value and change memory only for lanes that are not masked; compare-exchange stores the new value exactly if the previous one is equal to the given one, and reports success exactly in this case.", "quantifier": "all operations, values, indices and masks, all divisions of lanes into groups that execute together, and all orders of atomic operations", "why_tests_cant": "Which lanes execute together, the order in which hardware reductions combine values and the order of atomic operations are decided by the hardware; lanes with equal addresses are found by a loop over bits of addresses that ends early for some patterns only.", "anchors": ["src/metal_scatter.cpp: jitc_metal_emit_peer_mask_helper, jitc_metal_emit_warp_match, jitc_metal_emit_reduce_block, jitc_metal_render_scatter, jitc_metal_render_scatter_cas, jitc_metal_render_scatter_exch, jitc_metal_render_scatter_inc", "src/metal_packet.cpp: jitc_metal_render_scatter_reduce_packet"]}
{"id": "C93", "title": "Packet gathers and scatters on Metal devices equal separate ones", "statement": "On Metal devices, a packet gather returns the consecutive elements of the packet that each lane selects, and zeros for masked lanes; a packet scatter stores the values of each lane that is not masked into the elements of its packet and changes nothing else. It makes no difference whether the operation is executed with wide memory accesses or as separate gathers and scatters, and a packet that is scattered and gathered again is unchanged, also if it consists of masks. Accesses are aligned and remain inside of the packet.", "quantifier": "all packet sizes, element types, array contents, indices and masks, and all orders in which stores are executed", "why_tests_cant": "The division into words depends on packet size and element size, and words are reinterpreted as vectors; wrong code would be right for many of these combinations.", "anchors": ["src/metal_packet.cpp: metal_packet_chunk_bytes, metal_packet_word_type, jitc_metal_render_gather_packet, jitc_metal_render_scatter_packet", "src/metal_eval.cpp: VarKind::Gather", "src/metal_scatter.cpp: jitc_metal_render_scatter", "src/op.cpp: jitc_var_gather_packet, jitc_var_scatter_packet"]}
{"id": "C94", "title": "Cooperative vectors on Metal devices: products, accumulation, and half precision reductions", "statement": "On Metal devices, the product of a matrix (or its transpose) and a cooperative vector is A x + b for every matrix stored in an array, with or without padding between rows and with or without bias, whichever version of the code is used by the device; products are accumulated in single precision and rounded once, and nothing outside of the arrays is read. Accumulating a vector or an outer product adds each component of each active thread exactly once to its entry and changes nothing else. A half precision array that is the target of several scatters and reductions before it is evaluated then holds the scattered values plus each added value exactly once, rounded at the end.", "quantifier": "all shapes, offsets and strides, array contents, vectors, biases, sets of threads and masks, all orders of summation inside of the library function and of atomic additions, and all numbers of scatters and reductions before an evaluation", "why_tests_cant": "Which code is generated depends on the device and the length modulo 16, sizes are rounded in different ways, the order of atomic additions varies, and the state of half precision targets depends on the history of operations since the last evaluation.", "anchors": ["src/metal_coop_vec.cpp: jitc_metal_render_coop_vec, jitc_metal_render_coop_vec_accum, jitc_metal_render_coop_vec_outer_product_accum", "src/coop_vec.cpp: jitc_coop_vec_matvec, jitc_coop_vec_accum, jitc_coop_vec_outer_product_accum, jitc_coop_vec_metal_target", "src/var.cpp: jitc_var_shadow_make, jitc_var_shadow_narrow, jitc_var_shadow_setup_narrow", "src/op.cpp: jitc_var_scatter"]}
{"id": "C95", "title": "Local arrays on CUDA and Metal devices", "statement": "On CUDA and Metal devices, initialising a local array sets all of its elements; reading returns the element at the given index, or zero if the mask is not set; writing changes only the element at the given index and only if the mask is set, and leaves the array that was written to intact when it is still in use; selecting yields the elements of one of two arrays, also when the result takes the place of one of them. An array that is evaluated and used by a later kernel has the same elements in each thread, and evaluating it changes no other memory.", "quantifier": "all lengths, indices, masks, values, buffers and numbers of threads, and all orders in which the threads of a kernel store their elements", "why_tests_cant": "The generated loops must be right for all lengths, buffers may coincide, and threads run in any order; positions in evaluated arrays overflow only for sizes that are too large for tests.", "anchors": ["src/cuda_array.cpp: jitc_cuda_render_array_init, jitc_cuda_render_array_read, jitc_cuda_render_array_write, jitc_cuda_render_array_memcpy_in, jitc_cuda_render_array_memcpy_out, jitc_cuda_render_array_select", "src/metal_array.cpp: jitc_metal_render_array_init, jitc_metal_render_array_read, jitc_metal_render_array_write, jitc_metal_render_array_memcpy_in, jitc_metal_render_array_memcpy_out, jitc_metal_render_array_select", "src/cuda_eval.cpp: jitc_cuda_assemble", "src/metal_eval.cpp: jitc_metal_assemble"]}
{"id": "C96", "title": "Hardware textures on Metal devices: uploads, downloads, lookups and writes", "statement": "On Metal devices, uploading a packed buffer to a level of a hardware texture makes lookups find every channel of every texel and leaves other levels unchanged; downloading returns the channels of all texels and writes nothing behind the buffer, so that a download returns what was uploaded. Lookups return one value per channel, zero in lanes whose mask is not set. A write to a texel changes all of its channels and nothing else, and only if the mask is set.", "quantifier": "all numbers of channels, dimensions, sizes, levels and formats, all textures that are created or wrapped, buffer contents, positions and masks, and all orders in which threads of the copying kernels run", "why_tests_cant": "Channels are divided into groups of four with padding, which interacts with the number of dimensions, levels and formats; indices overflow only for sizes that are too large for tests; threads run in any order.", "anchors": ["src/metal_tex.mm: jitc_metal_tex_create, jitc_metal_tex_wrap, jitc_metal_tex_memcpy_d2t, jitc_metal_tex_memcpy_t2d, metal_tex_sample_op, jitc_metal_tex_write", "resources/metal_kernels.metal: deinterleave_kernel, interleave_kernel", "src/metal_eval.cpp: jitc_metal_render", "src/tex.h: TextureBase"]}
{"id": "C97", "title": "Cooperative vectors in OptiX ray tracing kernels", "statement": "On CUDA devices, operations on cooperative vectors, loads, conversions and products with matrices yield the components that OptiX computes from the components of their operands, whatever the lengths of the vectors; unused operands do not matter. Packing defines all components and unpacking returns them. Accumulation passes all components to OptiX if the mask is set, and does nothing otherwise. Resizing a vector to the number of threads does not change its components.", "quantifier": "all lengths of vectors and element sizes, all functions of OptiX, all contents of registers, including ones that are not initialised, offsets and masks", "why_tests_cant": "Components are passed in 16 or 64 registers or through local memory, depending on the largest length; registers that are not initialised often happen to hold the expected value.", "anchors": ["src/optix_coop_vec.cpp: jitc_optix_render_coop_vec, jitc_optix_render_coop_vec_unpack, jitc_optix_render_coop_vec_accum, jitc_optix_render_coop_vec_outer_product_accum", "src/var.cpp: jitc_var_resize"]}
{"id": "C98", "title": "Contexts with a subset of the multiprocessors of a CUDA device", "statement": "A context that is created for a number of multiprocessors has at least that number, no more than the device has, and a number that the device supports; requests that fit are granted and others raise an error. Every kernel is launched in the context that its thread has activated last and not left yet; leaving restores the previous one, also when contexts are nested and threads interleave. Releasing a context destroys what was created with it and nothing else.", "quantifier": "all requests and devices, all histories of activations, leaves and launches by any number of threads, with any nesting and null contexts", "why_tests_cant": "Tests use a few requests on one device and do not nest contexts or interleave threads.", "anchors": ["src/cuda_green.cpp: jitc_cuda_green_context_make, jitc_cuda_green_context_release, jitc_cuda_green_context_enter, jitc_cuda_green_context_leave", "src/common.h: ceil_div, align_up"]}
{"id": "C99", "title": "Reordering of threads by a key", "statement": "jit_reorder returns, for each value, a new variable with the same contents, type and size that depends on one reordering with the given key and number of bits; the reordering is executed behind everything that was computed before and ahead of everything that is computed later, and it exists as long as one of the results does. Keys of another type, incompatible sizes and pending writes that cannot be evaluated are errors; other calls succeed. Without CUDA, the values themselves are returned.", "quantifier": "all states of the variable storage, numbers of values, keys, numbers of bits and pending writes", "why_tests_cant": "Whether the storage of variables moves during the call depends on everything that was created before; the effect is a wrong reference count, which is noticed later or never.", "anchors": ["src/reorder.cpp: jitc_reorder", "src/var.cpp: jitc_var_new, jitc_var_new_node_1, jitc_var_new_node_2, jitc_var_inc_ref, jitc_var_dec_ref, jitc_new_scope"]}
{"id": "C100", "title": "Ranges in the profiler on macOS", "statement": "The end of a range ends the interval that the same thread began with the matching call, whatever other threads do in between; no two intervals are confused. Balanced calls never fail, and have no effect if no profiler is attached.", "quantifier": "all histories of beginnings and ends of ranges by any number of threads, with any nesting, initialisation and shutdown of the library", "why_tests_cant": "Profilers are not attached in tests; the histories that matter interleave threads and initialisation.", "anchors": ["src/profile.cpp: jitc_profile_init, jitc_profile_shutdown, jitc_profile_range_push, jitc_profile_range_pop"]}
{"id": "C101", "title": "Evaluation of symbolic variables", "statement": "An attempt to evaluate a variable raises an exception exactly if its value depends, directly or by way of any number of operations, on a symbolic variable (such as the state of a loop that is being recorded).", "quantifier": "all programs built from leaves, ordinary operations, copies, reads and writes of local arrays and operations on cooperative vectors, and all variables in them", "why_tests_cant": "The dependency can be of any length and pass through any mix of operations; a missed one silently yields wrong values instead of an error.", "anchors": ["src/op.cpp: jitc_var_check_impl", "src/var.cpp: jitc_var_schedule, jitc_var_schedule_force, jitc_var_copy, jitc_var_resize", "src/array.cpp: jitc_array_read, jitc_array_write", "src/coop_vec.cpp: jitc_coop_vec_pack, jitc_coop_vec_unpack"]}
