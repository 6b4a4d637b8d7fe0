# Formal model of zpc (zenustech/zpc)

The C++ source in `/repo` is read as text. Lean 4 definitions under `lean/Verif/Model` restate the code
function by function; each cites the file and lines it models and says where it simplifies. Small
specifications that do not use the models are in `lean/Verif/Spec`, helper lemmas in `lean/Verif/Proof`, the
property theorems, with concrete cases that meet their hypotheses, in `lean/Verif/Props`. `MANIFEST.json`
maps each property of `properties.jsonl` to its theorems. `seeded/LOG.jsonl` records the edits of the models
with which the theorems were tested.

## Conventions

* Machine integers: `BitVec` where wrap-around matters (hashes, bit tricks, keys); `Nat`/`Int` where the
  property is about values; absence of overflow is then an assumption of the model and said in its header.
* Undefined behaviour (access outside an array, null or freed memory, division by zero, a shift by the width
  or more, use of a destroyed object) is a distinct outcome, usually `none`. Theorems show that it does not
  occur, or give the history in which it does.
* Loops whose termination is part of the question take fuel; running out is `none`, and theorems give fuel
  that suffices.
* Concurrency: any number of threads or tasks, interleaved at single accesses to shared memory. Where the
  code reads with relaxed or plain loads, loads that return outdated values are modelled (`Mutex`, `Bht`,
  `UnionFind`). Other accesses are sequentially consistent. Regions with barriers: `Model/Phase`; in a phase
  the actions of all threads interleave arbitrarily.
* Floating point is not modelled. Where the code works on coordinates or weights the model uses a linear
  order, integers or abstract operations and says so.
* Where the code violates a property the negation is proved on a concrete witness (`_violated` in the name),
  and what does hold is proved under the missing hypothesis (`_partial`).

## Trusted base

* The kernel of Lean 4.33.0, and the axioms listed with every theorem below. p = `propext`,
  c = `Classical.choice`, q = `Quot.sound`; no other axiom is used. No `sorry`, `native_decide` or `bv_decide`.
* The Mathlib modules that are imported (all checked by the same kernel).
* The translation by hand from C++ to Lean. Template parameters are parameters of the model (element type,
  capacity, hash function, comparison). Nothing was compiled or run.
* The C++ memory model is replaced by the semantics above. Compilers, CUDA, SYCL, Vulkan and Python back
  ends are not modelled, nor is anything that runs on devices.


## Properties: what is modelled and how it is proved

### C01 Ring buffer keeps the newest elements in order — proved

Modules: `Model/RingBuffer`, `Spec/RingBuffer`, `Props/RingBuffer`.
Modelled: the whole `RingBuffer` class: array, head and tail counters with the index reduction of the code.
Proof: invariant by induction on histories; refinement to a bounded list.
Result: For capacity 1 the head counter is shown to grow without bound (signed overflow after 2^31-1 pushes).
Theorems (axioms): `RingBuffer.ringBuffer_refines_deque` (pcq), `RingBuffer.ringBuffer_indices_in_range` (pcq), `RingBuffer.ringBuffer1_head_unbounded_violated` (pq).

### C02 Small strings are truncated C strings — proved

Modules: `Model/SmallString`, `Props/SmallString`.
Modelled: `BasicSmallString`: constructor from a C string, `size`, `==`, `+`; buffers of bytes, reading past the end is undefined.
Proof: induction on the copy loops.
Theorems (axioms): `SmallString.ofChars_spec` (pq), `SmallString.ofSized_spec` (pcq), `SmallString.size_spec` (pq), `SmallString.eqChars_spec` (pcq), `SmallString.plus_spec` (pcq).

### C03 32-bit integer hash is invertible — proved

Modules: `Model/Hash`, `Props/Hash`.
Modelled: 32-bit `hash` and `unhash` on `BitVec 32`.
Proof: each xor-shift, shift-add and multiplication by an odd constant is inverted; bit extensionality.
Theorems (axioms): `Hash.unhash32_hash32` (pq), `Hash.hash32_unhash32` (pq), `Hash.hash32_injective` (pq).

### C04 64-bit integer hash is invertible — proved

Modules: `Model/Hash`, `Props/Hash`.
Modelled: 64-bit `hash` and `unhash`, signed and unsigned.
Proof: as C03; a collision for the signed overload.
Result: Holds for the unsigned overload; the signed overload is shown not injective (arithmetic shift).
Theorems (axioms): `Hash.unhash64_hash64` (pq), `Hash.hash64_unhash64` (pq), `Hash.hash64_injective` (pq), `Hash.hashI64_collides` (pcq), `Hash.hashI64_nonneg` (pcq), `Hash.hashI64_collides_further` (pq), `Hash.hashI64_not_injective_violated` (pcq).

### C05 3D Morton codes interleave the coordinate bits — proved

Modules: `Model/Bits`, `Props/Morton`.
Modelled: `expand_bits`, `compact_bits`, `morton_3d`; the conversion of floating point coordinates to integers is a parameter.
Proof: one lemma per magic mask for every bit position.
Theorems (axioms): `Bits.morton64_getLsbD` (pcq), `Bits.morton32_getLsbD` (pcq), `Bits.morton32_out_of_range_collides` (pq), `Bits.compact_expand64` (pcq), `Bits.compact_expand32` (pcq), `Bits.morton64_injective` (pcq), `Bits.morton32_injective` (pcq), `Bits.morton64_strictMono` (pcq), `Bits.morton32_strictMono` (pcq).

### C06 Alignment rounding and next power of two — proved

Modules: `Model/Bits`, `Props/Bits`.
Modelled: `round_down`, `round_up`, `next_2pow`, `next_power_of_two` with wrap-around.
Proof: arithmetic on `BitVec`, loop invariants.
Result: The _violated theorems record the overflow of round_up and that the source comment 'bigger than' is wrong for powers of two.
Theorems (axioms): `Bits.roundDown_spec` (pcq), `Bits.roundUp_spec` (pcq), `Bits.roundUp_overflow_violated` (pq), `Bits.bitLength_spec` (pcq), `Bits.bitCount_spec` (pcq), `Bits.next2pow_spec` (pcq), `Bits.next2pow_zero` (pq), `Bits.next2pow_ub` (pcq), `Bits.nextPowerOfTwo_spec` (pcq), `Bits.nextPowerOfTwo_bigger_violated` (pq).

### C07 Bit counting utilities — proved

Modules: `Model/Bits`, `Props/Bits`.
Modelled: `bit_count`, `bit_length`, `count_leading_zeros`, `num_bits_on`, `binary_reverse`.
Proof: loop invariants, full finite sub-domains lifted by lemmas.
Theorems (axioms): `Bits.binaryReverse_getLsbD` (pq), `Bits.binaryReverse_involutive` (pq), `Bits.countLeadingZeros_spec` (pcq), `Bits.numBitsOn_spec` (pcq), `Bits.isBitOn_spec` (pcq), `Bits.interleavedBitMask_spec` (pq).

### C08 bit_mask behaves as a finite set — proved

Modules: `Model/BitMask`, `Spec/BitMask`, `Props/BitMask`.
Modelled: `bit_mask` for every size: list of 64-bit words.
Proof: refinement to a predicate on positions.
Result: countOffset at exactly Size (multiple of 64) reads past the array and is recorded as violated; it lies outside the quantifier.
Theorems (axioms): `BitMask.isOn_spec` (pcq), `BitMask.findOn_spec` (pcq), `BitMask.findFirstOn_least` (pcq), `BitMask.findOff_spec` (pcq), `BitMask.findFirstOff_least` (pcq), `BitMask.countOffset_spec` (pcq), `BitMask.countOn_spec` (pcq), `BitMask.countOn_exact` (pcq), `BitMask.countOffset_size_violated` (pcq).

### C09 bit_mask whole-set operations stay inside the universe — partial

Modules: `Model/BitMask`, `Spec/BitMask`, `Props/BitMask`.
Modelled: whole-set operations of `bit_mask`.
Proof: as C08; counterexample for sizes that are no multiple of 64.
Result: Holds when Size is a multiple of 64; for every other Size setOn() makes countOn() exceed Size (violated).
Theorems (axioms): `BitMask.countOn_aligned_partial` (pcq), `BitMask.isOnAll_aligned_partial` (pcq), `BitMask.eq_spec` (pcq), `BitMask.isOffAll_spec` (pcq), `BitMask.countOn_setOnAll_violated` (pcq), `BitMask.eq_setOnAll_violated` (pq).

### C10 Callback registry returns unique live handles — partial

Modules: `Model/Callbacks`, `Props/Callbacks`.
Modelled: `callbacks`: ordered association list and the next identifier.
Proof: invariant over histories; counterexample.
Result: Holds for histories in which assign uses identifiers issued earlier; otherwise insert may return an id in use (violated).
Theorems (axioms): `Callbacks.call_spec` (pq), `Callbacks.insert_fresh` (pq), `Callbacks.insert_called` (pq), `Callbacks.nonEmpty_spec` (p), `Callbacks.insert_after_assign_violated` (p).

### C11 Strided integer range visits the same values sequentially and in parallel — partial

Modules: `Model/Iter`, `Props/Iter`.
Modelled: `IndexIterator`, `range`; sequential loop by equality, parallel loop by distance.
Proof: induction on the iteration; counterexamples.
Result: Holds sequentially when step divides end-begin, and in parallel for unit step; all other cases violated with witnesses.
Theorems (axioms): `Iter.range_seq_partial` (pcq), `Iter.range2_seq` (pcq), `Iter.range_par_unit_partial` (pq), `Iter.range_drops_last_violated` (pcq), `Iter.range_away_violated` (pq), `Iter.range_par_stride_violated` (pcq), `Iter.range_par_descending_violated` (pcq).

### C12 Collapse visits every multi-index exactly once in lexicographic order — partial

Modules: `Model/Iter`, `Props/Iter`.
Modelled: `Collapse` and its iterator.
Proof: induction on the number of dimensions; counterexample.
Result: Holds when the inner extents are positive; a zero inner extent is still visited (violated).
Theorems (axioms): `Iter.collapse_visits` (pcq), `Iter.collapse_lex_partial` (pcq), `Iter.collapse_zero_violated` (pcq), `Iter.mem_tuples` (pq).

### C13 zip stops at the shortest range — proved

Modules: `Model/Iter`, `Props/Iter`.
Modelled: `zip_iterator`, `zip`.
Proof: induction on the iteration.
Theorems (axioms): `Iter.zip_spec` (pq), `Iter.zipDist_spec` (pq).

### C14 Chunked views partition the range — partial

Modules: `Model/Iter`, `Props/Iter`.
Modelled: `chunk_view` and its iterator.
Proof: division with remainder; counterexample.
Result: Distance-based traversal partitions; sequential traversal never terminates properly (violated).
Theorems (axioms): `Iter.chunk_par_partial` (pcq), `Iter.chunk_seq_violated` (pcq).

### C15 Integer gcd/lcm/power helpers — proved

Modules: `Model/Rational`, `Props/Rational`.
Modelled: `gcd`, `lcm`, `pow_integral` with truncated division; 64-bit overflow is excluded.
Proof: Euclid's invariant, induction on the exponent.
Result: Exponents below the maximum of the exponent type; lcm(0,0) divides by zero and the maximal exponent returns the infinity constant (recorded as violated).
Theorems (axioms): `Rational.gcd_spec` (pq), `Rational.lcm_spec` (pcq), `Rational.lcm_zero_violated` (pq), `Rational.powIntegral_spec` (pcq), `Rational.powIntegral_max_violated` (pcq).

### C16 Rational arithmetic is exact — proved

Modules: `Model/Rational`, `Props/Rational`.
Modelled: the arithmetic of `rational`.
Proof: cross multiplication with explicit gcd facts.
Theorems (axioms): `Rational.add_exact` (pcq), `Rational.sub_exact` (pcq), `Rational.mul_exact` (pcq), `Rational.div_exact` (pcq), `Rational.neg_exact` (pcq), `Rational.mk_spec` (pcq).

### C17 Rational results stay in canonical form — partial

Modules: `Model/Rational`, `Props/Rational`.
Modelled: as C16.
Proof: coprimality lemmas; counterexamples for the sign.
Result: Lowest terms always hold; a positive denominator fails for some negative sums/products because gcd may be negative.
Theorems (axioms): `Rational.mk_spec` (pcq), `Rational.neg_exact` (pcq), `Rational.div_canonical` (pcq), `Rational.add_canonical_partial` (pcq), `Rational.sub_canonical_partial` (pcq), `Rational.mul_canonical_partial` (pcq), `Rational.eq_spec` (pcq), `Rational.getSign_spec` (pcq), `Rational.add_canonical_violated` (pcq), `Rational.mul_canonical_violated` (pcq).

### C18 Rational comparison is the numerical order — proved

Modules: `Model/Rational`, `Props/Rational`.
Modelled: `operator<` of `rational` by continued fractions.
Proof: induction on the remainders.
Result: For positive denominators as stated; the _violated theorems show the class itself produces negative denominators for which < is wrong or diverges.
Theorems (axioms): `Rational.lt_spec` (pcq), `Rational.gt_spec` (pcq), `Rational.lt_negative_violated` (pcq), `Rational.lt_diverges_violated` (pcq).

### C19 Dyadic numbers used by continuous collision detection are exact — partial

Modules: `Model/NumCCD`, `Props/NumCCD`.
Modelled: `NumCCD`, `Interval::bisect` with 64/8-bit wrap-around.
Proof: value semantics k/2^n; counterexamples.
Result: Addition is wrong when equal denominators add to a non-zero multiple of 2 (exponent wraps); <= is wrong on unreduced operands; everything used on intervals inside [0,1] is exact.
Theorems (axioms): `NumCCD.add_exact` (pcq), `NumCCD.add_wrap_violated` (pcq), `NumCCD.lt_exact` (pcq), `NumCCD.lt_overflow_violated` (none), `NumCCD.le_exact` (pcq), `NumCCD.le_unreduced_violated` (pcq), `NumCCD.isSumLeq1_exact` (pcq), `NumCCD.bisect_exact` (pcq).

### C20 The interval root finder reports the earliest contact first — partial

Modules: `Model/NumCCD`, `Props/NumCCD`.
Modelled: both root finders; floating point tests are oracles.
Proof: invariant of the work list; counterexample for the order.
Result: No box is lost, but the work list hands out the latest box, so the reported time is not the earliest.
Theorems (axioms): `NumCCD.pop_partial` (pq), `NumCCD.pop_latest_violated` (pcq), `NumCCD.dfs_not_earliest_violated` (pq), `NumCCD.bfs_reports_late_violated` (pcq).

### C21 Parallel inclusive scan equals the sequential prefix sums — partial

Modules: `Model/Phase`, `Model/Scan`, `Spec/Scan`, `Props/Scan`.
Modelled: sequential and OpenMP inclusive scan, every assignment one action.
Proof: footprints make each phase independent of its interleaving; algebra of segments.
Result: Proved for commuting operations under every schedule, in place or not; for an associative operation that does not commute the parallel scan gives a different result (witness proved). Sequential policy proved for all operations.
Theorems (axioms): `Scan.inclusive_scan_parallel_partial` (pcq), `Scan.inclusive_scan_has_run` (pq), `Scan.inclusive_scan_sequential` (pq), `Scan.inclusive_scan_noncommutative_violated` (pcq).

### C22 Parallel exclusive scan equals the sequential one — partial

Modules: `Model/Phase`, `Model/Scan`, `Spec/Scan`, `Props/Scan`.
Modelled: exclusive scans.
Proof: as C21.
Result: Proved when init is the identity, op commutes and the ranges are separate; witnesses show other init values and in-place use give wrong results.
Theorems (axioms): `Scan.exclusive_scan_parallel_partial` (pcq), `Scan.exclusive_scan_sequential` (pcq), `Scan.exclusive_scan_init_violated` (pq), `Scan.exclusive_scan_in_place_violated` (pq), `Scan.exclusive_scan_sequential_in_place_violated` (p).

### C23 Parallel reduce equals the sequential fold — partial

Modules: `Model/Phase`, `Model/Scan`, `Spec/Scan`, `Props/Scan`.
Modelled: reductions.
Proof: as C21.
Result: Proved for associative op with identity init under every schedule; other init values are applied once per thread (witness proved).
Theorems (axioms): `Scan.reduce_parallel_partial` (pcq), `Scan.reduce_sequential` (pq), `Scan.reduce_init_violated` (pcq).

### C24 Radix sort is a stable sort by the selected key bits — proved

Modules: `Model/Phase`, `Model/Radix`, `Spec/Sort`, `Props/Radix`.
Modelled: OpenMP and sequential radix sort, with and without values.
Proof: positions form a stable permutation per digit; lexicographic induction on the passes.
Result: All thread counts and schedules (threads may differ per pass), in place or not, any bit window; keys with values.
Theorems (axioms): `Radix.radix_sort_stable` (pcq), `Radix.radix_sort_has_run` (pq), `Radix.radix_sort_sequential_stable` (pcq), `Radix.radix_sort_deterministic` (pcq).

### C25 Radix sort on signed keys sorts numerically — proved

Modules: `Model/Phase`, `Model/Radix`, `Spec/Sort`, `Props/Radix`.
Modelled: as C24 with the sign bit flipped.
Proof: as C24.
Result: Full bit range; numeric order and stability.
Theorems (axioms): `Radix.radix_sort_signed` (pcq), `Radix.radix_sort_signed_sequential` (pcq).

### C26 merge_sort is a stable sort under every thread count — partial

Modules: `Model/Phase`, `Model/MergeSort`, `Spec/Sort`, `Props/MergeSort`.
Modelled: OpenMP and sequential merge sort.
Proof: stable merges by position; phases; counterexample.
Result: Sequential policy and all parallel runs whose threads end their local sorts in the same buffer (in particular when the thread count divides the length): stable sort under every schedule. In the other cases the code gives wrong results: proved for 513 elements and 2 threads.
Theorems (axioms): `MergeSort.merge_sort_parallel_partial` (pcq), `MergeSort.merge_sort_even_chunks_partial` (pcq), `MergeSort.merge_sort_one_thread` (pcq), `MergeSort.merge_sort_has_run` (pq), `MergeSort.merge_sort_pair_sequential` (pcq), `MergeSort.merge_sort_two_threads_violated` (pcq).

### C27 sort_pair sorts by the comparator passed in — partial

Modules: `Model/Phase`, `Model/MergeSort`, `Spec/Sort`, `Props/MergeSort`.
Modelled: quick sort and `sort_pair`.
Proof: loop invariants; counterexample.
Result: sort_pair sorts by operator< (proved, sequential and all parallel runs); the comparison passed in is ignored by the quick sort (witness proved). The parallel sort is proved for every comparison given the contract of std::sort.
Theorems (axioms): `MergeSort.sort_pair_sequential_partial` (pcq), `MergeSort.sort_pair_parallel_partial` (pcq), `MergeSort.sort_parallel` (pcq), `MergeSort.sort_pair_comparator_violated` (pcq).

### C28 Vector keeps its elements — partial

Modules: `Model/Vector`, `Spec/Vector`, `Props/Vector`.
Modelled: `Vector` on a heap of blocks; virtual-memory allocator, views and serialisation are not modelled.
Proof: ownership invariant over histories, refinement to lists; counterexamples.
Result: Refinement, memory safety, no shared or leaked storage and logarithmic reallocation for every history of calls on any number of vectors; excluded because the code breaks: push_back of an own element at full capacity (use after free) and reorder with spare capacity (size becomes capacity). Conventional allocator, trivially copyable elements.
Theorems (axioms): `Vector.vector_refines_partial` (pcq), `Vector.vector_storage_owned` (pcq), `Vector.vector_amortized` (pcq), `Vector.push_own_element_violated` (p), `Vector.reorder_size_violated` (p).

### C29 TileVector cells are independent and survive structural changes — partial

Modules: `Model/TileVector`, `Spec/TileVector`, `Props/TileVector`.
Modelled: `TileVector` on a value buffer.
Proof: injectivity of the address map, refinement; counterexample.
Result: All tile lengths, tag lists, sizes, histories and iteration orders, host side, conventional allocator. Excluded because the code breaks: copying a container without channels divides by zero.
Theorems (axioms): `TileVector.tile_vector_refines_partial` (pcq), `TileVector.cells_independent` (pcq), `TileVector.tile_views_agree` (pq), `TileVector.property_columns_partition` (pq), `TileVector.append_rejects_iff` (pcq), `TileVector.append_keeps_properties` (pcq), `TileVector.named_write_isolated` (pcq), `TileVector.copy_no_channels_violated` (p).

### C30 Type-erased function destroys every held callable exactly once — partial

Modules: `Model/Function`, `Spec/Function`, `Props/Function`.
Modelled: `zs::function`.
Proof: ownership invariant over histories; counterexamples.
Result: Histories over any number of function objects. Excluded because the code breaks (witnesses proved): copy/move assignment over a held callable leaks it, non-const self-assignment uses a destroyed callable, a throwing assignment destroys twice, assigning from a non-const empty function yields a non-empty one. swap does not compile and is not modelled; callables are assumed trivially relocatable as the code does.
Theorems (axioms): `Function.function_calls_latest_partial` (pcq), `Function.function_unshared_partial` (pcq), `Function.function_destroys_once_partial` (pcq), `Function.copy_assign_leaks_violated` (pq), `Function.move_assign_leaks_violated` (pq), `Function.self_assign_violated` (p), `Function.throwing_assign_violated` (p), `Function.assign_empty_violated` (p).

### C31 UniquePtr owns exactly once — proved

Modules: `Model/UniquePtr`, `Spec/UniquePtr`, `Props/UniquePtr`.
Modelled: `UniquePtr`.
Proof: ownership invariant over histories.
Result: Any number of pointers with stateful deleters; conversions between pointer types are not modelled.
Theorems (axioms): `UniquePtr.unique_ptr_refines` (pcq), `UniquePtr.unique_ptr_owns_once` (pcq), `UniquePtr.unique_ptr_no_leak` (pcq).

### C32 Mutex guarantees mutual exclusion — partial

Modules: `Model/Mutex`, `Spec/Mutex`, `Props/Mutex`.
Modelled: `Mutex` with arbitrary stale loads, spurious failures and wake-ups.
Proof: inductive invariant over interleavings.
Result: Mutual exclusion for every interleaving, stale relaxed loads, spurious compare-exchange failures and wake-ups at arbitrary times. Partial because sleeping is abstract: the parking lot itself has undefined behaviour with two sleepers (C33).
Theorems (axioms): `Mutex.mutex_exclusion_partial` (pq), `Mutex.mutex_word` (pq), `Mutex.mutex_free_available` (pq), `Mutex.mutex_unlock_frees` (pq).

### C33 Waking a waiter removes and signals the right waiter — partial

Modules: `Model/ParkingLot`, `Spec/ParkingLot`, `Props/ParkingLot`.
Modelled: one wait queue with node identities.
Proof: invariant for one waiter; counterexample histories.
Result: Right for queues with one waiting thread at a time, no timeout and no remove-and-continue; unpark erases the node after the one it wakes, so with two waiters, with notify_all used twice or with a timeout the code uses or deletes nodes it must not (witnesses proved).
Theorems (axioms): `ParkingLot.unpark_single_partial` (pcq), `ParkingLot.two_waiters_violated` (pq), `ParkingLot.other_key_violated` (pq), `ParkingLot.notify_all_twice_violated` (pq), `ParkingLot.timeout_violated` (pq), `ParkingLot.woken_node_kept_violated` (pq).

### C34 Atomic read-modify-write helpers are linearizable — partial

Modules: `Model/Atomics`, `Spec/Atomics`, `Props/Atomics`.
Modelled: host read-modify-write helpers.
Proof: linearisation at the successful compare-and-swap; counterexample for -0.
Result: Complete for integers (and for floating point addition, whose loop compares bit patterns); for float max/min when negative zero does not occur, because the loops compare with != (lost update with -0 proved).
Theorems (axioms): `Atomics.atomics_linearizable_partial` (pcq), `Atomics.atomics_linearizable_int` (pcq), `Atomics.atomics_linearizable_f32_partial` (pcq), `Atomics.atomics_final` (pcq), `Atomics.atomic_add_total` (pcq), `Atomics.atomic_max_negative_zero_violated` (pq).

### C35 threadsafe_queue is FIFO — proved

Modules: `Model/Queue`, `Spec/Queue`, `Props/Queue`.
Modelled: `threadsafe_queue` with mutex and condition variable steps.
Proof: linearisation at the effect inside the critical section.
Result: Every interleaving at the granularity of mutex, container and condition variable operations, with spurious wake-ups; element copies do not throw.
Theorems (axioms): `Queue.queue_fifo` (pcq), `Queue.queue_values` (pcq), `Queue.queue_calls` (pcq), `Queue.queue_no_lost_wakeup` (pcq), `Queue.queue_quiet_empty` (pcq), `Queue.queue_exclusive` (pcq).

### C36 Concurrent hash-table insertion assigns each key one dense index — partial

Modules: `Model/Bht`, `Model/BhtLock`, `Props/Bht`, `Props/BhtLock`.
Modelled: host insertion of `bht` at single accesses, and its slot lock for wide keys.
Proof: inductive invariant over interleavings with stale loads.
Result: Host insertion, every interleaving, number of calls, keys and hash functions, with stale loads; keys that differ from the sentinel. A key equal to the sentinel is reported as present without being inserted, and padded keys can be lost because the compare-and-swap includes uninitialised padding (both proved). The device tile_insert is not modelled. Also proved: no access outside the arrays, wait-freedom, the success flag, exactly when an insertion is refused (never for fewer keys than a bucket has slots), atomicity of the slot lock for wide keys.
Theorems (axioms): `Bht.bht_insert_dense_partial` (pcq), `Bht.bht_insert_once` (pcq), `Bht.bht_insert_safe` (pcq), `Bht.bht_insert_wait_free` (pcq), `Bht.bht_success_flag` (pcq), `Bht.bht_insert_refused` (pcq), `Bht.bht_insert_room` (pcq), `Bht.bht_capacity` (pq), `Bht.bht_sentinel_key_violated` (p), `Bht.bht_switch_word` (pcq), `Bht.bht_switch_padded_violated` (none), `BhtLock.bht_lock_linearizable` (pcq), `BhtLock.bht_lock_no_tearing` (pcq).

### C37 Hash-table query returns what was inserted — partial

Modules: `Model/Bht`, `Props/Bht`, `Spec/BhtTable`, `Proof/BhtGrow`, `Props/BhtGrow`.
Modelled: `query`, `resize`.
Proof: reachability of the slot along the probe sequence.
Result: Every set of keys other than the sentinel and all hash functions, for insertions and resize runs that report no failure; query of the sentinel returns an arbitrary index (violated).
Theorems (axioms): `Bht.bht_query_partial` (pcq), `Bht.bht_query_inserted` (pcq), `Bht.bht_query_absent` (pcq), `Bht.bht_reinsert` (pcq), `Bht.bht_resize_partial` (pcq), `Bht.bht_resize_safe` (pcq), `Bht.bht_table_size` (pq), `Bht.bht_sentinel_key_violated` (p), `Bht.bht_dictionary` (pcq), `Bht.bht_numbers_kept_insert` (pcq), `Bht.bht_numbers_kept_resize` (pcq).

### C38 Open addressing HashTable finds every inserted key inside its storage — partial

Modules: `Model/HashTable`, `Props/HashTable`.
Modelled: host `insert`, `query`, `entry`, `reset` of `HashTable`; accesses interleave, keys are written component by component under the slot lock; sequentially consistent; the hash function is arbitrary.
Proof: inductive invariant with slot owners and probe sequences; coprimality of the stride; counterexamples.
Result: Every hash function, table content, set of keys and interleaving of host insertions: indices are dense, every key is inserted once, no access outside the table, no deadlock. query is correct unless its probe sequence passes slot n-127: it then reads behind the table (violated, table of 128 slots). The key with all components maximal gets several indices (violated); with no free slot neither insert nor the query of an absent key returns (violated); a table that was not reset may block forever (violated).
Theorems (axioms): `HashTable.hash_insert_phase` (pcq), `HashTable.hash_insert_finishes` (pcq), `HashTable.hash_query_partial` (pcq), `HashTable.hash_reset` (pq), `HashTable.hash_table_size` (pcq), `HashTable.start_no_overflow` (pq), `HashTable.hash_query_oob` (pcq), `HashTable.hash_query_violated` (pcq), `HashTable.hash_sentinel_violated` (pcq), `HashTable.hash_full_violated` (pcq), `HashTable.hash_query_full_violated` (pcq), `HashTable.hash_unreset_violated` (pcq).

### C39 Cuckoo table never loses a key — partial

Modules: `Model/Bcht`, `Proof/Bcht`, `Props/Bcht`.
Modelled: `bcht`: constructor, sequential host `insert` (with eviction), `query`, `entry`, `reset`, `resize`, `mars_rng_32`; the device and OpenMP insertions are not modelled.
Proof: invariant: the occupied slots of a bucket are a prefix, every key is in a bucket before which all its buckets are full; the loop is followed with one key in flight. Counterexamples are executed with the default parameters of the table.
Result: Sequential host view, every bucket size, hash triple and eviction choice, different keys: when no insertion fails every key is found with its index, and a failing insertion makes exactly one key disappear. Inserting a key again after it was moved gives it a second index (violated); with KeyCompare=false moved keys are lost although all insertions succeed (violated, default hash functions); a failed insertion loses an older key and later ones write out of bounds (violated); resize ignores failures (violated). Parallel insertion is not covered.
Theorems (axioms): `Bcht.bcht_make` (pcq), `Bcht.bcht_insert_new` (pcq), `Bcht.bcht_query` (pq), `Bcht.bcht_entry` (pq), `Bcht.bcht_insert_partial` (pcq), `Bcht.bcht_resize_partial` (pcq), `Bcht.bcht_duplicate_violated` (pq), `Bcht.bcht_hashed_violated` (pq), `Bcht.bcht_failure_violated` (pq), `Bcht.bcht_overflow_violated` (pq), `Bcht.bcht_sentinel_violated` (pq), `Bcht.bcht_resize_violated` (pq).

### C40 RBTreeMap behaves as a finite map — partial

Modules: `Model/RBTree`, `Spec/RBTree`, `Props/RBTree`.
Modelled: `RBTreeMap` on its node heap with parent pointers. Not modelled: the implicit copy constructor (shallow, destroys the nodes twice) and the overloads that do not compile (`erase(const_iterator)` and the constant range `erase`).
Proof: the heap represents a tree (zipper); red-black invariant; refinement to a finite map.
Result: Proved for every history of insert, assignment through [], [], erase by key, by iterator and by range, and clear: no undefined behaviour, get/forEach/size/empty/erase/[] agree with the abstract map, the destructor frees every node once. count agrees on non-empty maps only: on an empty map it dereferences the null root (rbtree_count_violated).
Theorems (axioms): `RBTree.rbtree_history` (pcq), `RBTree.rbtree_step` (pcq), `RBTree.rbtree_get` (pcq), `RBTree.rbtree_contents` (pcq), `RBTree.rbtree_count_partial` (pcq), `RBTree.rbtree_count_violated` (pcq), `RBTree.rbtree_erase` (pcq), `RBTree.rbtree_subscript` (pcq), `RBTree.rbtree_destruct` (pcq).

### C41 RBTreeMap stays balanced — proved

Modules: `Model/RBTree`, `Spec/RBTree`, `Props/RBTree`.
Modelled: as C40.
Proof: as C40.
Result: For every history, on the node heap.
Theorems (axioms): `RBTree.rbtree_balanced` (pcq), `RBTree.rbtree_lookup_steps` (pcq).

### C42 RBTreeMap iteration and bounds are ordered — proved

Modules: `Model/RBTree`, `Spec/RBTree`, `Props/RBTree`.
Modelled: iterators as C40.
Proof: in-order successor on the represented tree.
Result: For every history. Beyond the statement: decrements, iterator stability, and that the constant reverse iterator's -- at crend() goes to the wrong end (violated).
Theorems (axioms): `RBTree.rbtree_iterate` (pcq), `RBTree.rbtree_lower_bound` (pcq), `RBTree.rbtree_upper_bound` (pcq), `RBTree.rbtree_decrement` (pcq), `RBTree.rbtree_decrement_end` (pcq), `RBTree.rbtree_const_reverse_decrement_violated` (pcq), `RBTree.rbtree_erase_at` (pcq), `RBTree.rbtree_erase_range` (pcq), `RBTree.rbtree_erase_stable` (pcq), `RBTree.rbtree_insert_stable` (pcq).

### C43 union_find labels connected components — proved

Modules: `Model/UnionFind`, `Props/UnionFind`.
Modelled: both overloads of `union_find`; tasks with stale reads.
Proof: inductive invariant: chains decrease and stay inside components; a finished edge has merged its ends.
Result: Every symmetric graph, interleaving of single accesses, and arbitrarily stale plain reads; representatives are the smallest vertices; every task is wait-free. Without symmetry the result is wrong (proved on a witness), as the statement assumes.
Theorems (axioms): `UnionFind.union_find_components` (pcq), `UnionFind.union_find_safe` (pcq), `UnionFind.union_find_wait_free` (pcq), `UnionFind.union_find_asymmetric_violated` (p).

### C44 Colouring is proper and complete — partial

Modules: `Model/Coloring`, `Props/Coloring`.
Modelled: both colourings, loops with arbitrary visiting orders.
Proof: loop invariants by induction on the rounds; extremal rows exist.
Result: Every symmetric graph and every order in which the loops visit the rows. Proper only when adjacent rows have different weights: with a tie both functions give adjacent rows the same colour (proved on a witness). Completeness, use of every colour, termination, independence of the visiting order and, for maximum_independent_sets, maximality and the degree bound hold for all weights.
Theorems (axioms): `Coloring.coloring_terminates` (pcq), `Coloring.fast_complete` (pcq), `Coloring.fast_proper_partial` (pcq), `Coloring.fast_deterministic` (pcq), `Coloring.maximum_complete` (pcq), `Coloring.maximum_proper_partial` (pcq), `Coloring.maximum_maximal` (pcq), `Coloring.maximum_degree` (pcq), `Coloring.maximum_deterministic` (pcq), `Coloring.fast_proper_violated` (pq), `Coloring.maximum_proper_violated` (pq).

### C45 Maximum flow value is maximal — partial

Modules: `Model/MaxFlow`, `Spec/MaxFlow`, `Props/MaxFlow`.
Modelled: breadth-first kernel at the granularity of memory accesses with outdated reads, the search loop, the walk along the parents, the augmenting loop; the hash table is replaced by a search in the row; host policies only.
Proof: invariants over interleavings, residual network invariant, cut argument for maximality.
Result: Every matrix without repeated pairs that stores both directions of every edge, with distinct source and sink. Rows processed one after the other: feasible and maximal. Rows interleaved: ends, no out-of-bounds access, feasible, provided lines 34-35 load potentialFlows[vi] once. Maximality under interleaving, feasibility with two loads, missing opposite edges, repeated pairs and equal source and sink fail (proved on witnesses).
Theorems (axioms): `MaxFlow.maxflow_feasible_partial` (pcq), `MaxFlow.maxflow_maximal_partial` (pcq), `MaxFlow.maxflow_deterministic` (pcq), `MaxFlow.maxflow_maximal_violated` (pcq), `MaxFlow.maxflow_feasible_violated` (pcq), `MaxFlow.maxflow_reverse_edge_violated` (p), `MaxFlow.maxflow_duplicate_violated` (p), `MaxFlow.maxflow_same_vertex_violated` (pcq).

### C46 Sparse matrix built from triplets is the sum of the triplets — partial

Modules: `Model/SparseBuild`, `Spec/SparseBuild`, `Proof/SparseBuild`, `Props/SparseBuild`.
Modelled: `build` from triplets, `build` of the topology with and without mirroring, `fastBuild` and their kernels, on top of the models of `bht` and of the exclusive scan.
Proof: the numbering of the table (C36) and counting with fetch-add place every entry at its own position in its line, for every order; commuting additions make the order of the second kernel irrelevant.
Result: Every triplet list, storage order, schedule and hash function, for values whose component additions commute (integers and blocks of integers are instances; floating-point rounding is not modelled): the matrix is well formed and holds the sums. Also the topology build (with mirrored entries) and fastBuild for entries given once. Partial: keys differ from the sentinel of the hash table, and the hash table must not refuse an insertion: then the kernel takes the failure token for an index and writes out of bounds before the retry loop looks (violated, concrete witness with 16 colliding keys).
Theorems (axioms): `Sparse.build_partial` (pcq), `Sparse.build_get_partial` (pcq), `Sparse.build_deterministic_partial` (pcq), `Sparse.build_int_partial` (pcq), `Sparse.build_small` (pcq), `Sparse.build_total` (pcq), `Sparse.get_exact` (pq), `Sparse.intAdder_commutes` (pq), `Sparse.blockAdder_commutes` (pq), `Sparse.blockAdder_add` (pq), `Sparse.build_topo_partial` (pcq), `Sparse.build_topo_small` (pcq), `Sparse.fast_build_exact` (pcq), `Sparse.fast_build_total` (pq), `Sparse.build_refused_violated` (pcq), `Sparse.build_collision_violated` (pcq).

### C47 Sparse transpose swaps indices — partial

Modules: `Model/SparseTranspose`, `Spec/SparseTranspose`, `Proof/SparseTranspose`, `Props/SparseTranspose`.
Modelled: `transposeFrom` (same storage order, another matrix; in place sequentially), its two kernels, `localOrdering` with a radix sort per line.
Proof: counting with fetch-add gives each entry its own place in its new line in every order (as C46); each line is sorted by the radix sort (C24); concrete and general counterexamples for the dimensions and in place.
Result: Every well-formed matrix of the same storage order, every interleaving of the kernels, both with and without ordering of the lines: the result is the transposed matrix, well formed, with ascending subscripts if ordered (localOrdering proved on the radix-sort model). Partial because the code does not have the property: the number of rows and columns is never exchanged (violated, so the theorem assumes the target already has them), and in place, which is what transpose(policy) and py_interop do, the entries are read from freshly allocated arrays (violated: any value may result, or an access out of bounds). Device policies are not modelled; subscripts of at most 2^31.
Theorems (axioms): `Sparse.transpose_partial` (pcq), `Sparse.transpose_get_partial` (pcq), `Sparse.transpose_topo_partial` (pcq), `Sparse.transpose_total` (pq), `Sparse.order_exact` (pcq), `Sparse.order_topo` (pcq), `Sparse.order_total` (pq), `Sparse.transpose_other_order` (pq), `Sparse.transpose_dims_violated` (pq), `Sparse.transpose_default_violated` (pcq), `Sparse.transpose_self_violated` (pcq), `Sparse.transpose_self_bounds_violated` (pq), `Sparse.transpose_self_dims_violated` (pq).

### C48 Sparse matrix-vector product is the mathematical product — partial

Modules: `Model/Spmv`, `Spec/Sparse`, `Proof/Spmv`, `Props/Spmv`.
Modelled: `spmv_classic`, `spmv`, `spmv_mask` with their kernels, both storage orders; the semirings of ZpcFunctional.hpp, with the type of their intermediate results; numbers are exact.
Proof: every interleaving is a permutation of the atomic operations; the operations on one output component are the terms of its row in some order.
Result: Every matrix, vector, schedule and choice of operations with the stated laws (numbers, 3x3 blocks, boolean, min-plus; floating-point rounding not modelled). spmv_classic adds the product to the output. spmv on column-major matrices launches one task per row instead of per column: columns are left out if there are more of them (violated) and every call reads out of bounds if there are fewer (violated). spmv with the default semiring truncates every product to int (violated).
Theorems (axioms): `Spmv.spmv_classic_exact` (pcq), `Spmv.spmv_row_major_exact` (pcq), `Spmv.spmv_col_major_partial` (pcq), `Spmv.spmv_mask_exact` (pcq), `Spmv.spmv_total` (pcq), `Spmv.laws_int` (p), `Spmv.laws_rat` (pcq), `Spmv.laws_plusTimesInt` (p), `Spmv.laws_plusTimes` (pcq), `Spmv.laws_boolean` (none), `Spmv.laws_block` (pq), `Spmv.laws_minPlus` (pq), `Spmv.spmv_plus_times_partial` (pcq), `Spmv.spmv_col_major_tall_violated` (pq), `Spmv.spmv_col_major_wide_violated` (pcq), `Spmv.spmv_plus_times_violated` (pcq).

### C49 Binary search for a sparse entry is safe and exact — partial

Modules: `Model/Sparse`, `Proof/Sparse`, `Props/Sparse`.
Modelled: `SparseMatrixView::locate` (linear and binary), `exist`, `operator()`, both storage orders, `size_type` of 32 bits.
Proof: loop invariant over the 32-bit bounds of the search; the wrap-around is proved for every line at offset 0.
Result: Every line with ascending subscripts that does not start at offset 0, or starts there with a subscript not above the one searched: exact, within the line. All other searches in a line at offset 0 (empty, or only larger subscripts) read offset 2^31-1 (violated, for every such matrix); locate_binary_safe_iff says exactly which searches are safe. The linear search and operator() are correct for every line. The searches of SpmatViewLite in py_interop are the same text.
Theorems (axioms): `Sparse.locate_binary_partial` (pcq), `Sparse.exist_partial` (pcq), `Sparse.search_exact` (pcq), `Sparse.locate_binary_safe_iff` (pcq), `Sparse.locate_linear` (pq), `Sparse.get_spec` (pq), `Sparse.locate_first_line_violated` (pcq), `Sparse.locate_witness_violated` (p).

### C50 BVH traversal reports exactly the overlapping primitives — proved

Modules: `Model/Bvh`, `Spec/Bvh`, `Proof/Bvh`, `Props/Bvh`.
Modelled: the stackless traversal (lines 525-751 without the variants with fronts), boxes and overlap tests; the specification is a binary tree and its preorder layout.
Proof: induction on the tree: the walk from the position of a subtree visits its leaves in order or skips it; containment of boxes makes skipping exact.
Result: Every binary tree laid out as the queries expect (Layout), every choice of boxes in which parents contain their children, every query and callback, including callbacks that stop the query; also at most two primitives, where there is no tree. Coordinates are elements of any linear order (NaN excluded). find_nearest, find_nearest_point and ray_intersect for distances and hit tests that are monotone under containment (their rounding is not modelled). Queries with fronts are not modelled. The queries of BvhViewLite in py_interop are the same text.
Theorems (axioms): `Bvh.iter_neighbors_exact` (pq), `Bvh.iter_neighbors_all` (pq), `Bvh.iter_treelet_exact` (pq), `Bvh.find_nearest_exact` (pq), `Bvh.find_nearest_point_exact` (pq), `Bvh.ray_intersect_exact` (pq), `Bvh.overlaps_meet` (pq), `Bvh.refit_then_query` (pcq).

### C51 Bottom-up BVH refit is schedule independent — proved

Modules: `Model/Bvh`, `Proof/BvhRefit`, `Props/BvhRefit`.
Modelled: `_refit_bottom_up` and `refit` (lines 467-490, 1228-1259): one task per leaf, each step one access to a shared cell.
Proof: invariant with a ghost mark per node (idle, being made by a task, made and carried to the parent, handed over); a measure shows that every step comes nearer to the end.
Result: Every tree, number of tasks and interleaving of their steps under sequential consistency: no access out of bounds, every box written once and never while another task accesses it, the boxes at the end are those merged along the tree, the smallest boxes if no primitive's box is inverted. The host atomic_cas uses relaxed order on failure; the weak memory model is not covered.
Theorems (axioms): `Bvh.refit_exact` (pcq), `Bvh.refit_ends` (pcq), `Bvh.refit_throws` (p), `Bvh.refit_race_free` (pcq), `Bvh.refit_writes_once` (pcq), `Bvh.refit_ready` (pcq), `Bvh.refit_then_query` (pcq), `Bvh.box_union` (pq), `Bvh.mergeBox_contains` (none).

### C52 Spatial hash reports every primitive overlapping the query — partial

Modules: `Model/SpatialHash`, `Spec/SpatialHash`, `Proof/BhtRetry`, `Proof/SpatialHash`, `Props/SpatialHash`.
Modelled: `build` (the loop that inserts the cells and enlarges the table, the counting and the distributing kernel, the scan between them) and both `iter_neighbors`; the table is the model of `bht`, the loop over cells that of `Collapse`. The side length is a monotone map to rational numbers; conversion to `int` does not overflow.
Proof: invariant of the numbering for a table in which keys were re-inserted by `resize` and others are inserted concurrently; positions of a cell are handed out from its end; the number of calls per primitive is the number of common cells, from which the rest follows by rounding.
Result: Violated: cells are half open, so boxes that only touch in a plane between two cells, points on the upper end of a box in such a plane, and primitives flat in the first dimension in such a plane are missed; a build without primitives keeps the old ones. Proved otherwise, for every interleaving and every number of retries; absence of out-of-bounds accesses for up to eight different cells per primitive.
Theorems (axioms): `SpatialHash.spatial_hash_cells` (pcq), `SpatialHash.spatial_hash_loop` (pcq), `SpatialHash.spatial_hash_reports` (pcq), `SpatialHash.spatial_hash_point` (pcq), `SpatialHash.spatial_hash_finds_partial` (pcq), `SpatialHash.spatial_hash_point_partial` (pcq), `SpatialHash.spatial_hash_near` (pcq), `SpatialHash.spatial_hash_safe_partial` (pcq), `SpatialHash.spatial_hash_touching_violated` (pcq), `SpatialHash.spatial_hash_point_violated` (pcq), `SpatialHash.spatial_hash_flat_violated` (pcq), `SpatialHash.spatial_hash_flat_second` (pcq), `SpatialHash.spatial_hash_once_violated` (pcq), `SpatialHash.spatial_hash_empty_violated` (pcq).

### C53 Stack allocator hands out aligned disjoint blocks — partial

Modules: `Model/Memory`, `Props/Memory`.
Modelled: `stack_allocator` with 64-bit addresses.
Proof: invariant over LIFO histories; counterexamples.
Result: Every buffer, power of two or other non-zero alignment and LIFO history whose sizes do not overflow the address space: blocks are aligned, inside the buffer and disjoint from live ones. A failed allocation leaves the head beyond the tail, so that later requests fail (violated); sizes near 2^64 wrap around and succeed (violated); an empty block cannot be returned (violated).
Theorems (axioms): `Memory.stack_blocks_partial` (pq), `Memory.stack_first_fit` (pq), `Memory.stack_free` (pq), `Memory.stack_failed_violated` (p), `Memory.stack_wrap_violated` (p), `Memory.stack_empty_violated` (p).

### C54 Growing buffer resource preserves blocks — partial

Modules: `Model/Memory`, `Props/Memory`.
Modelled: `handle_resource`; the upstream resource is an oracle with a log.
Proof: invariant over histories; counterexamples.
Result: Offsets of blocks obtained under LIFO use lie inside the current buffer and are disjoint, and upstream allocations are balanced, when one alignment is used throughout. Blocks do not stay valid: growing frees the buffer without copying (violated). With different alignments a block may be misaligned after growth, and the buffer is returned with the wrong alignment (violated); destroying an unused resource reads an uninitialised member (violated).
Theorems (axioms): `Memory.handle_offsets_partial` (pq), `Memory.handle_upstream_partial` (pq), `Memory.handle_moves_violated` (p), `Memory.handle_alignment_violated` (p), `Memory.handle_upstream_violated` (p), `Memory.handle_unused_violated` (none).

### C55 Virtual memory residency is tracked exactly — partial

Modules: `Model/Memory`, `Props/Memory`.
Modelled: `arena_virtual_memory_resource`, `stack_virtual_memory_resource` on Linux; system calls are oracles acting on chunks of pages.
Proof: mask words represent the set of pages; invariant over histories; counterexamples.
Result: Every history of commits and evictions with failing system calls: masks agree with the pages, and for ranges inside the reserved space check_residency tells whether all their pages (arena) or all pages below their end (stack resource) are accessible. Ranges that reach beyond it or wrap around are reported resident (violated), and eviction in the stack resource removes every page above the offset, also outside the range (violated).
Theorems (axioms): `Memory.arena_tracks_partial` (pcq), `Memory.arena_check_partial` (pcq), `Memory.arena_commit` (pcq), `Memory.arena_safe` (pcq), `Memory.arena_check_safe_partial` (pcq), `Memory.arena_check_beyond_violated` (pq), `Memory.arena_check_wrap_violated` (pq), `Memory.arena_evict_wrap_violated` (pq), `Memory.stackvm_tracks` (pcq), `Memory.stackvm_check_partial` (pcq), `Memory.stackvm_commit` (pq), `Memory.stackvm_evict_violated` (pq), `Memory.stackvm_check_beyond_violated` (pq), `Memory.stackvm_check_wrap_violated` (pq).

### C56 Address mixing in the parking lot is a bijection — proved

Modules: `Model/Hash`, `Props/Hash`.
Modelled: `twang_mix64`, `twang_unmix64`.
Proof: as C03.
Theorems (axioms): `Hash.twangUnmix64_twangMix64` (pcq), `Hash.twangMix64_twangUnmix64` (pcq), `Hash.twangMix64_injective` (pcq), `Hash.hashCombine32_injective` (pq), `Hash.hashCombine64_injective` (pq).

### C57 Recorded allocations are freed once — partial

Modules: `Model/Resource`, `Props/Resource`.
Modelled: `Resource::deallocate` over `concurrent_map`; the two locks; use of an erased record or a second release is undefined behaviour.
Proof: inductive invariant over interleavings; counterexample schedules.
Result: Calls with different pointers under every interleaving, and calls with any pointers one after the other, release every recorded block exactly once with its record, and report an error otherwise. Two concurrent calls with the same pointer release it twice or read an erased record (violated).
Theorems (axioms): `Resource.resource_deallocate_partial` (pq), `Resource.resource_alone` (pq), `Resource.resource_sequential_partial` (pcq), `Resource.resource_double_free_violated` (none), `Resource.resource_dangling_violated` (none).

### C58 LBVH construction yields a binary radix tree over the sorted leaves — proved

Modules: `Model/BvhBuild`, `Spec/BvhBuild`, `Proof/BvhTree`, `Proof/BvhCodes`, `Proof/BvhLaunch`, `Proof/BvhBuild`, `Props/BvhBuild`.
Modelled: the kernels of `build` (lines 188-337) and `build` (810-1092), on top of the models of the radix sort, the exclusive scan and `refit`; computation of the codes excluded.
Proof: the exponential and binary searches find the maximal ranges and splits of the code prefixes (ties broken by position); every write to a cell carries the same value, so the order is irrelevant; the arrays after each kernel are read off the radix tree.
Result: Every number of primitives, all codes, every interleaving of the writes of each kernel. The Morton codes are arbitrary (their computation is not modelled) and subscripts do not overflow (fewer than 2^29 primitives). build_empty_violated, outside the statement: build on no primitives keeps the old hierarchy, and queries still report the old primitives.
Theorems (axioms): `Bvh.build_topology` (pcq), `Bvh.build_topology_ends` (pcq), `Bvh.build_topology_deterministic` (pcq), `Bvh.sort_spec` (pcq), `Bvh.build_ready` (pcq), `Bvh.build_then_query` (pcq), `Bvh.build_ends` (pcq), `Bvh.build_empty_violated` (pcq).

### C59 Whole-word bit reversal reverses the order of the bits — partial

Modules: `Model/Bits`, `Props/Bits`.
Modelled: host `reverse_bits`.
Proof: counterexamples for every non-zero word.
Result: The host implementation shifts by wrong amounts: wrong for every non-zero word; right for zero only.
Theorems (axioms): `BitMask.reverseBits_violated` (pq), `BitMask.reverseBits_zero_partial` (none).

### C60 The portable trailing-zero count is exact — proved

Modules: `Model/Bits`, `Props/Bits`.
Modelled: host `count_tailing_zeros`.
Proof: bit lemmas.
Theorems (axioms): `BitMask.ctzSoft64_spec` (pcq), `BitMask.ctzSoft32_spec` (pcq), `BitMask.ctzSoft8_spec` (pcq).

### C61 The CCD root finders never miss a contact — proved

Modules: `Model/NumCCD`, `Props/NumCCD`.
Modelled: as C20.
Proof: every point of a box stays in the work list or in the result.
Result: The breadth-first finder is covered down to time intervals of length 2^-61.
Theorems (axioms): `NumCCD.dfs_conservative` (pcq), `NumCCD.bfs_conservative` (pcq), `NumCCD.lt_overflow_violated` (none).

### C62 HashTable resize and preserve keep the mapping — partial

Modules: `Model/HashTable`, `Props/HashTable`.
Modelled: `resize` with its parallel reinsertion; the removal loop of `preserve` in sequence.
Proof: as C38; counterexamples for `preserve`.
Result: resize: every table content and interleaving. preserve is wrong: removal of colliding keys uses position -1 (violated), and growth reports entries that no key has (violated).
Theorems (axioms): `HashTable.hash_resize` (pcq), `HashTable.hash_resize_finishes` (pcq), `HashTable.hash_preserve_shrink_violated` (pcq), `HashTable.hash_preserve_grow_violated` (pcq).

### C63 BVH self-iteration reports every overlapping pair once — partial

Modules: `Model/Bvh`, `Proof/Bvh`, `Props/Bvh`.
Modelled: `self_iter_neighbors` (lines 696-730).
Proof: the walk from a leaf visits the leaves after it; counting in a permutation.
Result: Every hierarchy ready for queries: each pair of different overlapping primitives is reported exactly once, by one of the two leaves. But with more than two primitives every leaf also reports itself (violated), with at most two none does.
Theorems (axioms): `Bvh.self_iter_all` (pq), `Bvh.self_iter_pairs_partial` (pcq), `Bvh.self_iter_exact` (pq), `Bvh.self_iter_few` (pcq), `Bvh.self_iter_itself_violated` (pq).

### C64 Single-pass BVH construction yields a valid hierarchy — partial

Modules: `Model/BvhBuildRefit`, `Props/BvhBuildRefit`.
Modelled: `buildRefit` with its kernels (lines 339-466, 1094-1226) on the sequential policy, the sorted codes given.
Proof: only comparisons of split locations matter, so that three primitives have three cases, each computed by the kernel.
Result: Violated: inner nodes are numbered by split position, but _build_reorder_trunk_with_bv takes node 0 for the root; with three primitives the access is out of bounds for all codes whose first two are the nearest, and the hierarchy is right for all others (boxes as trees of merges). Sequential policy only; other numbers of primitives are not covered.
Theorems (axioms): `Bvh.build_refit_violated` (pcq), `Bvh.build_refit_three_violated` (pcq), `Bvh.build_refit_three_partial` (pcq).

### C65 Grid coordinates and blocks are in one-to-one correspondence — proved

Modules: `Model/GridCoord`, `Spec/GridCoord`, `Proof/GridCoord`, `Props/GridCoord`.
Modelled: the constants of `Level` and the functions between coordinates, keys and offsets of adaptive grids, and those of sparse grids, on 32-bit words.
Proof: bit by bit for one component, then induction on the components; the specification rounds integers down and numbers the cells of a block.
Result: Every layout whose blocks have sides below 2^31 and whose tiles have fewer than 2^32 cells, every dimension. Beyond the statement: global_coord_to_local_offset of sparse grids does not mask the first component (violated; its assertion rejects every use).
Theorems (axioms): `Grid.coordToKey_spec` (pcq), `Grid.tileOffset_spec` (pcq), `Grid.hierOffset_spec` (pcq), `Grid.sbit_spec` (pq), `Grid.iCoord_of_coord` (pcq), `Grid.coord_of_iCoord` (pcq), `Grid.same_cell` (pcq), `Grid.child_key` (pcq), `Grid.child_offset` (pcq), `Grid.parent_key` (pcq), `Grid.key_ne_marker` (pcq), `Grid.valid_vdb` (p), `Grid.valid_octree` (p), `Grid.decompose_spec` (pcq), `Grid.sparse_iCoord` (pcq), `Grid.sparse_of_iCoord` (pcq), `Grid.global_offset_violated` (pq).

### C66 Accessors of adaptive grids are transparent — proved

Modules: `Model/AdaptiveGrid`, `Proof/GridAccess`, `Props/GridAccess`.
Modelled: `probeValue`, `getValueLevel`, `probeValueAndCache` and `AdaptiveGridAccessor` on the models of `bht` and `bit_mask`; access outside an array is a distinct outcome.
Proof: invariant: every record leads to the block that the look-up from the coarsest level reaches for all coordinates with that key; empty records never match because keys are even.
Result: Every grid content, even inconsistent ones, one number per channel; single-threaded use of an accessor on an unchanged grid.
Theorems (axioms): `Grid.accessor_transparent` (pcq), `Grid.accessor_hit` (pq).

### C67 Reordering an adaptive grid keeps its values — partial

Modules: `Model/GridReorder`, `Spec/GridTopo`, `Proof/GridReorder`, `Proof/GridOrder`, `Proof/GridShuffle`, `Proof/GridThrow`, `Props/GridReorder`.
Modelled: `AdaptiveGrid::reorder` with `Vector::reorder`, `TileVector::reorderTiles`, `bht::reorder`, the histogram of child masks and its scan, as a set of outcomes over all orders of parallel tasks and all sorts by code; exceptions and access outside arrays are distinct outcomes.
Proof: each array reordering applies the same permutation of blocks; the offset of a child is the number of set bits before it, which is its rank among children in the order of parents; look-ups are invariant under permutation of each level.
Result: Proved for every consistent grid with one mask per block. Violated: repeating; Vector::reorder leaves as many masks as the capacity, so with spare capacity (which resizeTopo creates) the next reorder throws (reorder_twice_violated).
Theorems (axioms): `Grid.reorder_exact` (pcq), `Grid.reorder_values` (pcq), `Grid.reorder_again` (pcq), `Grid.reorder_throws` (pcq), `Grid.reorder_twice_violated` (pcq), `Grid.mixed_consistent` (pcq).

### C68 Completing the topology of an adaptive grid — partial

Modules: `Model/GridTopo`, `Spec/GridCover`, `Spec/BhtTable`, `Proof/BhtGrow`, `Proof/GridGrow`, `Proof/GridComplement`, `Props/GridComplement`.
Modelled: `complementTopo` with the growth of tables, concurrent insertion of parent keys, growth of masks and tiles, the computation of child masks, and the final `reorder`, as a set of outcomes; fresh memory holds anything. Table capacity in bytes and other execution spaces are not modelled.
Proof: the calls already returned are added as ghost tasks, so that the invariant of insertion into empty tables applies to tables in use; a level grows by the keys of the level below; look-ups in a consistent grid find the finest block.
Result: Proved for grids with one mask per finest block, if no insertion is refused (the code does not check; proved never to happen below 16 blocks); without this condition only that inserting is defined. Violated: a new block between an active tile and a finer block hides the tile, whose coordinates become inactive and zero (complement_hides_violated).
Theorems (axioms): `Grid.complement_up` (pcq), `Grid.complement_run` (pcq), `Grid.complement_completes` (pcq), `Grid.complement_few` (pcq), `Grid.complement_same` (pcq), `Grid.complement_hides_violated` (pcq), `Grid.gap_ready` (pcq), `Grid.full_consistent` (pcq).

### C69 Restructuring an adaptive grid into another layout — partial

Modules: `Model/GridRestructure`, `Spec/GridRestructure`, `Proof/GridCells`, `Proof/GridHash`, `Proof/GridAssign`, `Proof/GridRestructure`, `Props/GridRestructure`.
Modelled: `restructure`: choice of the target level for each source level, estimate and growth of tables, insertion of the keys of active cells, growth of tiles and masks, assignment of values and flags, and `complementTopo`, as a set of outcomes; fresh memory holds anything. The transform of the grid is not modelled; an assigning task is one step.
Proof: invariants over source levels: the target blocks are those of the corners of active cells (`Hashed`), then each target cell gets the value probed at its corner; a coordinate active in the source lies in the same target block as its corner, and by the condition on layouts no finer target block contains it.
Result: Proved for consistent, ordered sources if each source cell fits into one target block (Holds) and target blocks below a cell are no larger than the source blocks below it (Spares; holds for equal layouts), and if no insertion is refused (proved for up to 12 active cells). Violated otherwise: active cells are hidden by completed parents (restructure_hides_violated) or only partly transferred (restructure_drops_violated).
Theorems (axioms): `Grid.restructure_runs` (pcq), `Grid.restructure_moves` (pcq), `Grid.restructure_few` (pcq), `Grid.restructure_valueOr` (pcq), `Grid.same_layout` (pq), `Grid.restructure_hides_violated` (pcq), `Grid.restructure_drops_violated` (pcq), `Grid.corner_source` (pcq).

### C70 Interpolation weights of grid nodes — proved

Modules: `Model/Kernel`, `Spec/Kernel`, `Proof/Kernel`, `Props/Kernel`.
Modelled: Base nodes, the three B-spline kernels with derivatives, the three delta kernels and bspline_weight over an ordered field with floor; converting a number that does not fit is a distinct outcome.
Proof: The spec is the Cox-de Boor recursion for the B-splines on integer knots, with its slope and curvature, and moments of rows of weights; each table of weights is shown to be the restriction of the spline to the nodes and the spline to vanish elsewhere; polynomial identities per interval give sums, first moments and Taylor formulas.
Result: The property is about exact arithmetic: numbers are the elements of any ordered field with a floor (the examples use rationals and reals); rounding is not modelled. The delta kernels are proved for any function that is a square root on non-negative numbers.
Theorems (axioms): `Kernel.linear_spline` (pcq), `Kernel.quadratic_spline` (pcq), `Kernel.cubic_spline` (pcq), `Kernel.linear_interpolates` (pcq), `Kernel.quadratic_interpolates` (pcq), `Kernel.cubic_interpolates` (pcq), `Kernel.quadratic_curve` (pq), `Kernel.cubic_curve` (pq), `Kernel.linear_taylor` (pcq), `Kernel.quadratic_taylor` (pcq), `Kernel.cubic_taylor` (pcq), `Kernel.weights_defined` (pcq), `Kernel.bsplineWeight_spec` (pcq), `Kernel.delta2_linear` (pcq), `Kernel.delta3_values` (pcq), `Kernel.delta3_conditions` (pcq), `Kernel.delta4_values` (pcq), `Kernel.delta4_conditions` (pcq), `Kernel.real_sqrt` (pcq).

### C71 Looking up values in sparse grids — proved

Modules: `Model/SparseGrid`, `Spec/SparseGrid`, `Proof/SparseGrid`, `Props/SparseGrid`.
Modelled: Sparse grid as a bht table of block coordinates plus tiles; valueOr (cells and faces), the accessor record and sequences of look-ups through it; reads out of bounds are a distinct outcome.
Proof: The spec says which block holds a coordinate by arithmetic on integers (floor division) and which cell; the accessor keeps the invariant that its record is fresh or the true number of the block with that key; side length at least two makes the fresh record unequal to all keys.
Result: Side length 1, which the class allows, is outside the property: accessor_side_one_violated and hole_side_one_violated show that there a fresh accessor and the hole mark are taken for blocks. Scalar look-ups only (not whole-vector channels); the increment of a coordinate wraps in the model.
Theorems (axioms): `SparseGrid.look_unique` (pcq), `SparseGrid.valueOr_block` (pcq), `SparseGrid.valueOr_empty` (pcq), `SparseGrid.cell_injective` (pcq), `SparseGrid.valueOrFace_spec` (pq), `SparseGrid.accessor_answers` (pcq), `SparseGrid.accessor_valueOr` (pcq), `SparseGrid.twoBlocks_ok` (pcq), `SparseGrid.accessor_side_one_violated` (pq), `SparseGrid.hole_side_one_violated` (pq).

### C72 Sampling grids — partial

Modules: `Model/Sample`, `Spec/Sample`, `Proof/Sample`, `Props/Sample`.
Modelled: Arenas (base node, weights, nodes) for cell-centred and staggered positions, xlerp and weighted sums, minimum and maximum, iSample / iPack / staggered samples of sparse grids, iSample of adaptive grids with and without accessor.
Proof: The spec is a sum over all of Z^d (finsum) of values times B-spline values; each kernel gives rows of weights (C70) and the sample is the tensor product of rows, by induction on dimensions; affine reproduction and bounds follow for every row that sums to one with the right first moment.
Result: minimum and maximum through an accessor count the background as a stored value (minimum_accessor_violated); they are proved without accessor for sparse grids. Numbers are an ordered field with floor; positions must be in range of 32-bit coordinates. Not covered: transforms between world and index space, staggered samples of adaptive grids, finite-difference gradients.
Theorems (axioms): `Sample.sample_accessor` (pcq), `Sample.represents_exists` (pcq), `Sample.represents_value` (pcq), `Sample.sample_spline` (pcq), `Sample.sample_affine` (pcq), `Sample.sample_bounds` (pcq), `Sample.interp_linear` (pcq), `Sample.interp_node` (pcq), `Sample.sample_node` (pcq), `Sample.interp_half` (pcq), `Sample.pack_spec` (pq), `Sample.staggered_spline` (pcq), `Sample.staggered_affine` (pcq), `Sample.staggeredCell_spec` (pcq), `Sample.staggeredCellFace_spec` (pq), `Sample.gradient_spline` (pcq), `Sample.gradient_affine` (pcq), `Sample.minimum_spec` (pcq), `Sample.maximum_spec` (pcq), `Sample.adaptive_accessor` (pcq), `Sample.adaptive_spline` (pcq), `Sample.adaptive_affine` (pcq), `Sample.slopeGrid_ok` (pcq), `Sample.minimum_accessor_violated` (pcq).

### C73 Owners are optional values — partial

Modules: `Model/Owner`, `Spec/Owner`, `Proof/Owner`, `Props/Owner`.
Modelled: Both versions of Owner with in-place storage, all constructors (with the implicit copy operations that overload resolution selects), assignments, reset, destructor, on a list of owners; objects given up are counted, uses of missing objects are a distinct outcome; exceptions.
Proof: The state is shown to be a function of the list of optional values, operation by operation; counterexamples by evaluation.
Result: Every sequence of the operations that work. Violated: the copy constructor and copy assignment of owners are templates, so the implicit ones are used, which copy bytes (wrong for types that are not trivially copyable); for types without assignment, assigning over a value that throws, or from the own value, leaves or uses a destroyed object. InplaceStorage only (DynamicStorage does not compile).
Theorems (axioms): `Owner.owner_optional_partial` (pcq), `Owner.owner_destroys` (pcq), `Owner.moved_stays` (pcq), `Owner.copy_construct_violated` (p), `Owner.copy_assign_violated` (p), `Owner.assign_throws_violated` (p), `Owner.assign_self_violated` (p).

### C74 Complex numbers and real roots — partial

Modules: `Model/Complex`, `Props/Complex`.
Modelled: The class complex statement by statement over any field, the functions of MathUtils.h over the real numbers with the functions of Mathlib for those of the C library, the quadratic and cubic solvers.
Proof: Against Mathlib's complex numbers: real and imaginary parts, addition theorems, exponentials of logarithms; counterexamples by evaluation or direct calculation.
Result: Exact arithmetic. Violated: the product of two complex numbers uses the new real part for the imaginary part (mul_iff says when it is right), hence the complex power is wrong ((-1)^1 = 1) and the cubic solver returns numbers that are no roots (7/6 for x^3 - x); the quadratic solver returns the larger root if the leading coefficient is negative, and no root if the discriminant is 0. asin, acos, integer powers and the setters do not compile and are not modelled; the inverse functions are shown to be right inverses, sqrt to be the principal root.
Theorems (axioms): `Cx.toC_injective` (pcq), `Cx.addR_spec` (pcq), `Cx.subR_spec` (pcq), `Cx.mulR_spec` (pcq), `Cx.divR_spec` (pcq), `Cx.add_spec` (pcq), `Cx.sub_spec` (pcq), `Cx.neg_spec` (pcq), `Cx.div_spec` (pcq), `Cx.rDiv_spec` (pcq), `Cx.self_spec` (pcq), `Cx.eq_spec` (pcq), `Cx.eqR_spec` (pcq), `Cx.norm_spec` (pcq), `Cx.conj_spec` (pcq), `Cx.mul_iff` (pcq), `Cx.mulSelf_iff` (pcq), `Cx.mul_re_partial` (pcq), `Cx.mul_violated` (pcq), `Cx.mul_comm_violated` (pcq), `Cx.abs_spec` (pcq), `Cx.arg_spec` (pcq), `Cx.polar_spec` (pcq), `Cx.exp_spec` (pcq), `Cx.log_spec` (pcq), `Cx.log10_spec` (pcq), `Cx.cos_spec` (pcq), `Cx.sin_spec` (pcq), `Cx.cosh_spec` (pcq), `Cx.sinh_spec` (pcq), `Cx.tan_spec` (pcq), `Cx.tanh_spec` (pcq), `Cx.sqrt_spec` (pcq), `Cx.powR_spec` (pcq), `Cx.pow_partial` (pcq), `Cx.pow_violated` (pcq), `Cx.asinh_spec` (pcq), `Cx.acosh_spec` (pcq), `Cx.atan_spec` (pcq), `Cx.atanh_spec` (pcq), `Cx.quadRoot_linear` (pcq), `Cx.quadRoot_partial` (pcq), `Cx.quadRoot_none` (pcq), `Cx.quadRoot_order_violated` (pcq), `Cx.quadRoot_double_violated` (pcq), `Cx.cubicRoot_violated` (pcq).

### C75 Small vectors and matrices — partial

Modules: `Model/SmallMat`, `Proof/SmallMat`, `Proof/SmallMatOffset`, `Props/SmallMat`.
Modelled: vec as a store of numbers with the position function, each function as its loops over the store.
Proof: The loops fill what they index (general lemmas about nested loops), the rest is Mathlib's matrices; the position function is a mixed radix number; the determinant by expansion along row 0 and induction, the inverses entry by entry.
Result: Exact arithmetic. Violated: matrixCofactor3d writes the adjugate, not the matrix of cofactors (as matrixCofactor2d does); vec_crossMul_vec_3D adds where the cross product subtracts; parallel looks at the first component of the cross product only and reports two axes as parallel. In-place use of the column-major functions (output equal to an input) is not modelled.
Theorems (axioms): `Mat.offset_bijective` (pcq), `Mat.offset_two` (pcq), `Mat.constant_spec` (pq), `Mat.add_spec` (pq), `Mat.sub_spec` (pq), `Mat.smul_spec` (pq), `Mat.neg_spec` (pq), `Mat.sum_spec` (pcq), `Mat.prod_spec` (pcq), `Mat.dot_spec` (pcq), `Mat.l2NormSqr_spec` (pcq), `Mat.cross3_spec` (pcq), `Mat.cross2_spec` (pcq), `Mat.identity_spec` (pq), `Mat.transpose_spec` (pq), `Mat.matMul_spec` (pcq), `Mat.matVec_spec` (pcq), `Mat.vecMat_spec` (pcq), `Mat.crossMatrix_spec` (pcq), `Mat.trace_spec` (pcq), `Mat.dyadic_spec` (pq), `Mat.diagMulR_spec` (pcq), `Mat.diagMulL_spec` (pcq), `Mat.row_spec` (pq), `Mat.col_spec` (pq), `Mat.flattenCol_spec` (pq), `Mat.flattenRow_spec` (pq), `Mat.affine_spec` (pcq), `Mat.affineT_spec` (pcq), `Mat.determinant_spec` (pcq), `Mat.matDiagMatT_spec` (pcq), `Mat.matTVec_spec` (pcq), `Mat.matrixDet_spec` (pcq), `Mat.matrixTranspose_spec` (pcq), `Mat.matrixTrace_spec` (pcq), `Mat.matrixMul_spec` (pcq), `Mat.matrixDiag_spec` (pcq), `Mat.matrixTMul_spec` (pcq), `Mat.matrixMulT_spec` (pcq), `Mat.matrixVec_spec` (pcq), `Mat.vectorMat_spec` (pcq), `Mat.matrixCofactor_spec` (pcq), `Mat.matrixCofactor3_violated` (pcq), `Mat.crossMul3_violated` (pcq), `Mat.sdiv_spec` (pcq), `Mat.deviatoric_spec` (pcq), `Mat.matrixDeviatoric3_spec` (pcq), `Mat.inverse1_spec` (pcq), `Mat.inverse2_spec` (pcq), `Mat.inverse3_spec` (pcq), `Mat.adjugate4_spec` (pcq), `Mat.inverse4_spec` (pcq), `Mat.max_spec` (pq), `Mat.min_spec` (pq), `Mat.abs_spec` (pcq), `Mat.infNorm_spec` (pcq), `Mat.infNormSqr_spec` (pcq), `Mat.orthogonal3_spec` (pcq), `Mat.parallel_partial` (pcq), `Mat.parallel_violated` (pcq), `Mat.length_spec` (pcq), `Mat.normalized_spec` (pcq), `Mat.orthogonal2_spec` (pcq), `Mat.unpackCoord_spec` (pcq), `Mat.linearToCoord_spec` (pcq).

### C76 Givens rotations, QR, singular values, polar decomposition — partial

Modules: `Model/Givens`, `Proof/Givens`, `Proof/GivensSvd`, `Props/Givens`.
Modelled: Rotations as (rows, c, s) on matrices of real numbers, the decompositions as the sequence of rotations the code applies; the loop of qr_svd with a bound on passes.
Proof: A rotation is multiplication by an orthogonal matrix, so U H Vᵀ is kept by every step; zeros by computing the entries a step touches; the 2 by 2 case through the polar decomposition and a quadratic; the closest rotation through the diagonal of a rotation (q00 + q11 ≤ 1 + q22).
Result: Exact real arithmetic. For 3 by 3 matrices the theorems are about the result if the loop of qr_svd ends; that it ends is not proved. One by one matrices are not modelled.
Theorems (axioms): `Rot.conv_spec` (pcq), `Rot.unconv_spec` (pcq), `Rot.rotation_spec` (pcq), `Rot.fill_orthogonal` (pcq), `Rot.mul_spec` (pcq), `Rot.zeroChasing_spec` (pcq), `Rot.upperBidiagonalize_spec` (pcq), `Rot.makeLambdaShape_spec` (pcq), `Rot.qr_spec` (pcq), `Rot.qrSvd2_spec` (pcq), `Rot.polarDecomposition2_spec` (pcq), `Rot.qrSvd3_partial` (pcq), `Rot.polarDecomposition3_partial` (pcq), `Rot.gramSchmidt_spec` (pcq).

### C77 Eigenvalues of symmetric matrices and projection to positive semidefinite matrices — partial

Modules: `Model/Eigen`, `Proof/EigenJacobi`, `Proof/Eigen3`, `Proof/EigenPd`, `Props/Eigen`.
Modelled: The three versions of eigen_decomposition over real numbers, statement by statement (the NxN loop with a bound on the passes and outcomes for 0/0 and reads out of range), and make_pd.
Proof: NxN: each pass is a conjugation by a rotation that removes 2 p² from the off-diagonal sum of squares, which bounds the passes. 3x3: the trigonometric formula through the triple angle identity against the zeros given by the spectral theorem; the kernel vector through cross products of columns; the accepted approximation bounded with Cayley-Hamilton. make_pd: in the basis of eigenvectors the diagonal of a positive semidefinite matrix is nonnegative.
Result: Exact real arithmetic. Two by two: proved in full. Three by three: values proved in full, eigenvectors with an error proportional to the epsilon of the number type (the code accepts an approximation if two values are near). Other sizes: the code violates the property. The index of the largest entry is searched again for rows k and l only, so the loop can stop at a matrix that is not diagonal (eigenN_violated: a 4 by 4 matrix for which a value returned is not an eigenvalue); a zero matrix gives 0/0, one by one matrices are read out of range. What holds for the code is eigenN_ends and eigenN_partial; eigenN_fresh shows that a search over all rows repairs it. make_pd is proved for every exact decomposition.
Theorems (axioms): `Eig.sym_of_symmetric` (pcq), `Eig.eigenN_ends` (pcq), `Eig.eigenN_partial` (pcq), `Eig.eigenN_fresh` (pcq), `Eig.eigenN_zero_violated` (pcq), `Eig.eigenN_one_violated` (pcq), `Eig.eigenN_witness` (pcq), `Eig.eigenN_violated` (pcq), `Eig.eigen2_spec` (pcq), `Eig.eigen3_values` (pcq), `Eig.eigen3_vectors` (pcq), `Eig.eigen3_exact` (pcq), `Eig.makePd_psd` (pcq), `Eig.makePd_nearest` (pcq), `Eig.makePd_keeps` (pcq), `Eig.makePd_two` (pcq), `Eig.makePd_three` (pcq).

### C78 Elastic energies: the stress is the gradient of the energy, the tangent is the derivative of the stress — partial

Modules: `Model/Elastic`, `Spec/Elastic`, `Proof/ElasticSigma`, `Proof/Elastic`, `Proof/ElasticCorotated`, `Proof/ElasticInv`, `Proof/ElasticSpd`, `Proof/ElasticSvd`, `Props/Elastic`.
Modelled: The models over real numbers with the decomposition U, S, V as parameter; the tangent with its blocks A and B, the clamping of the sums and the optional projection; the invariants with gradients and Hessians as written.
Proof: Derivatives along lines F + t G for all G. Neo-Hookean through the determinant and the inverse along the line; fixed corotated through the sum of the singular values, whose derivative follows from its being a maximum over rotations (no differentiability of the decomposition is needed). Tangents by changing to the basis of the decomposition. Existence of decompositions by maximizing a weighted trace over rotations.
Result: Exact real arithmetic. Proved: Lame parameters, equation of state, Neo-Hookean (singular values and invariants) and stable Neo-Hookean in full; fixed corotated gradient; Hencky model at the level of singular values; every projected tangent positive semidefinite. Violated by the code: AnisotropicArap returns half of the gradient (arap_gradient_violated), the second derivative of the fixed corotated model in one dimension is the constant 1 (fixedCorotated_d2psi_violated), EquationOfState ignores gamma (eos_gamma_violated), the third invariant reads a column out of range in two dimensions (i3_columns_violated), the stretching matrix divides by zero for singular matrices (stretching_violated). Not proved: tangent of the fixed corotated model and gradient of the Hencky model as functions of the matrix; the AnisotropicArap tangent is not modelled. The singular value decomposition is a parameter; in two dimensions the one of the code is put in (neoHookean_code2, fixedCorotated_code2).
Theorems (axioms): `Elastic.lame_roundtrip` (pcq), `Elastic.eos_gamma_violated` (pcq), `Elastic.eos_derivatives` (pcq), `Elastic.neoHookean_dpsi` (pcq), `Elastic.neoHookean_d2psi` (pcq), `Elastic.fixedCorotated_dpsi` (pcq), `Elastic.fixedCorotated_d2psi_partial` (pcq), `Elastic.fixedCorotated_d2psi_violated` (pcq), `Elastic.stvk_dpsi` (pcq), `Elastic.stvk_d2psi` (pcq), `Elastic.neoHookean_twist` (pcq), `Elastic.fixedCorotated_twist` (pcq), `Elastic.stvk_twist2` (pcq), `Elastic.stvk_twist3` (pcq), `Elastic.neoHookean_gradient` (pcq), `Elastic.neoHookean_piola_deriv` (pcq), `Elastic.neoHookean_tangent3` (pcq), `Elastic.neoHookean_tangent2` (pcq), `Elastic.fixedCorotated_gradient_aux` (pcq), `Elastic.fixedCorotated_gradient3` (pcq), `Elastic.fixedCorotated_gradient2` (pcq), `Elastic.tangent_psd3` (pcq), `Elastic.tangent_psd2` (pcq), `Elastic.i2_derivatives` (pcq), `Elastic.i3_derivatives` (pcq), `Elastic.i3_columns_violated` (pcq), `Elastic.stableNeoHookean_derivatives` (pcq), `Elastic.neoHookeanInvariant_derivatives` (pcq), `Elastic.neoHookean_forms` (pcq), `Elastic.neoHookean_code2` (pcq), `Elastic.fixedCorotated_code2` (pcq), `Elastic.code2_sum_pos` (pcq), `Elastic.stableSpd_psd` (pcq), `Elastic.stableSpd_exact` (pcq), `Elastic.stretching_violated` (pcq), `Elastic.arap_gradient_partial` (pcq), `Elastic.arap_gradient_violated` (pcq).

### C79 Distances of points, edges and triangles; barrier and mollifier of contact — partial

Modules: `Model/Distance`, `Spec/Distance`, `Proof/Distance`, `Proof/DistanceTri`, `Proof/DistanceEdge`, `Proof/DistanceFlat`, `Proof/DistanceGrad`, `Proof/DistanceMore`, `Props/Distance`.
Modelled: The functions over real numbers, branch by branch; a division by zero is none. The gradients as the generated code writes them, with reused temporaries.
Proof: The specification is the least element of the set of squared distances. Each branch yields coefficients that satisfy the optimality conditions of a convex quadratic on a triangle or a square, which imply minimality. Gradients: each coordinate enters numerator and denominator affinely, the quotient is differentiated and compared. The barrier at its threshold by gluing one sided derivatives.
Result: Exact real arithmetic. Violated by the code: edges of length zero and triangles of area zero give zero divided by zero although the distance exists (dist2_pe_degenerate_violated, pt_flat_violated); in one dimension dist2_pe_unclassified returns the largest number for points on the edge (dist2_pe_1d_violated); dist_ee_sqr takes short edges for parallel because its tolerance is absolute (dist_ee_sqr_short_violated: with the float tolerance edges of length 1/20 that cross get 1/1600) and ignores the first edge if the second is a point (dist_ee_sqr_point_violated); dist2_ee_unclassified returns the distance of an end point for edges that cross (dist2_ee_crossing_violated); et_intersected is false for all edges in the plane of the triangle (et_intersected_coplanar_violated). The partial theorems exclude these cases and some around them: dist2_ee_unclassified_partial all nearly parallel edges, et_intersected_partial all edges parallel to the plane, the theorems on dist_ee_sqr and ee_category_and_dist2 determinants between zero and the tolerance, that on dist_ee_sqr also numerators between zero and the tolerance. Not modelled: Hessians, pFpx, the rounding to float in dist_ee_sqr.
Theorems (axioms): `Dist.dist2_pp` (pcq), `Dist.dist2_pe_unclassified_partial` (pcq), `Dist.dist2_pe_degenerate_violated` (pcq), `Dist.dist2_pe_1d_violated` (pcq), `Dist.dist2_pe` (pcq), `Dist.dist_pt_sqr_partial` (pcq), `Dist.pt_category_and_dist2_partial` (pcq), `Dist.pt_category_formula_partial` (pcq), `Dist.dist2_pt_unclassified_partial` (pcq), `Dist.pt_functions_agree` (pcq), `Dist.dist2_pt` (pcq), `Dist.pt_flat_violated` (pcq), `Dist.dist_ee_sqr_partial` (pcq), `Dist.dist_ee_sqr_small_partial` (pcq), `Dist.dist_ee_sqr_short_violated` (pcq), `Dist.dist_ee_sqr_point_violated` (pcq), `Dist.ee_category_and_dist2_partial` (pcq), `Dist.dist2_ee_unclassified_partial` (pcq), `Dist.dist2_ee_crossing_violated` (pcq), `Dist.dist2_ee` (pcq), `Dist.et_intersected_partial` (pcq), `Dist.et_intersected_coplanar_violated` (pcq), `Dist.dist_grad_pe2` (pcq), `Dist.dist_grad_pe3` (pcq), `Dist.dist_grad_ee` (pcq), `Dist.dist_grad_pt` (pcq), `Dist.mollifier_grad_ee` (pcq), `Dist.mollifier_range` (pcq), `Dist.barrier_derivatives` (pcq), `Dist.barrier_shape` (pcq), `Dist.barrier_pos` (pcq).

### C80 Conjugate gradient and conjugate residual solvers — partial

Modules: `Model/Krylov`, `Spec/Krylov`, `Proof/Krylov`, `Proof/KrylovCg`, `Proof/KrylovCr`, `Props/Krylov`.
Modelled: The two solve functions over real vectors with the three functions of the system as parameters; in conjugate gradients a zero divisor is none.
Proof: One recurrence in an arbitrary inner product: residuals are orthogonal and directions conjugate, by strong induction. Conjugate gradients is the instance with the usual product, conjugate residuals that with the product of A. Orthogonal nonzero residuals are linearly independent, which bounds the iterations. The Krylov space lies in the span of the directions, to which the residual is orthogonal; convexity gives optimality.
Result: Exact real arithmetic. Conjugate gradients: proved. Conjugate residuals: violated by the code. The first product A p is not projected, so with fixed values the solver changes them (cr_fixed_violated); solve overwrites the member tol by the tightened tolerance, so a second call with the same arguments gives another result (cr_tol_violated). The partial theorems on conjugate residuals require that A maps free vectors to free vectors, in particular they hold if nothing is fixed. Not modelled: MinimumResidual.hpp (calls functions that GivensRotation does not have), console output and getchar.
Theorems (axioms): `Krylov.cg_solves` (pcq), `Krylov.cg_exact` (pcq), `Krylov.cg_optimal` (pcq), `Krylov.cr_solves_partial` (pcq), `Krylov.cr_optimal_partial` (pcq), `Krylov.cr_fixed_violated` (pcq), `Krylov.cr_tol_violated` (pcq).

### C81 Rotations — partial

Modules: `Model/Rotation`, `Spec/Rotation`, `Proof/Rotation`, `Proof/RotationMore`, `Proof/RotationVec`, `Props/Rotation`.
Modelled: The constructors and extractions over real numbers, with the square root and the constant of near_zero as parameters.
Proof: Axis and angle is the matrix of the half angle quaternion, and the matrix of a unit quaternion is a rotation by polynomial identities. A rotation satisfies rows, columns and cofactors equations (adjugate equals transpose); from these the extracted axis and angles give back every entry. Derivatives per coordinate.
Result: Exact real arithmetic. The extraction is violated for rotations closer than the constant of near_zero to a lock but not at it: axis_near_violated (small turns come back as the identity), euler_near_violated. The partial theorems cover the locks themselves and everything farther away; for half turns about an axis the exact square root is assumed, and that the first coordinate of the axis is zero if it is near zero. Away from the locks nothing is assumed of sqrtNewtonRaphson except that it is positive.
Theorems (axioms): `Rotation.axis_rotation` (pcq), `Rotation.axis_turns` (pcq), `Rotation.axis_add` (pcq), `Rotation.axis_roundtrip_partial` (pcq), `Rotation.axis_found` (pcq), `Rotation.axis_near_violated` (pcq), `Rotation.euler_product` (pcq), `Rotation.euler_rotation` (pcq), `Rotation.euler_roundtrip_partial` (pcq), `Rotation.euler_found` (pcq), `Rotation.euler_near_violated` (pcq), `Rotation.quat_rotation` (pcq), `Rotation.quat_product` (pcq), `Rotation.quat_conjugate` (pcq), `Rotation.quat_axis` (pcq), `Rotation.between_three` (pcq), `Rotation.between_two` (pcq), `Rotation.angle_rotation` (pcq), `Rotation.velocity_three` (pcq), `Rotation.velocity_two` (pcq).

### C82 Square root by Newton's iteration, logarithm quotients, prefix sums — partial

Modules: `Model/MathUtils`, `Model/Elastic`, `Proof/MathUtils`, `Props/ScalarMath`.
Modelled: sqrtNewtonRaphson with a number of steps; the quotients over the real logarithm; the folds over lists.
Proof: The step formulas for the distance to the root and for the movement give both bounds and that the distance halves. The remainder of the logarithm series is in Mathlib. Induction on the index for the folds.
Result: Exact real arithmetic, unbounded integers. A small relative error of sqrtNewtonRaphson is violated for large arguments, because relTol is multiplied with the argument instead of the root (sqrt_large_violated: factor above two at 1e14 with the default for float), and for arguments below the constant, which give zero (sqrt_small_violated). Rounding, with which the iteration could also end differently, is not modelled.
Theorems (axioms): `MathUtils.sqrt_ends` (pcq), `MathUtils.sqrt_close` (pcq), `MathUtils.sqrt_relative_partial` (pcq), `MathUtils.sqrt_rest` (pcq), `MathUtils.sqrt_large_violated` (pcq), `MathUtils.sqrt_small_violated` (pcq), `MathUtils.log_quotient` (pcq), `MathUtils.log_difference` (pcq), `MathUtils.log_interlock` (pcq), `MathUtils.prefix_sums` (pcq).

### C83 Smallest positive roots of quadratic and cubic polynomials — partial

Modules: `Model/MathUtils`, `Spec/MathUtils`, `Proof/MathUtils`, `Props/PolyRoots`.
Modelled: Both functions; none for a division by zero of reals, for the complex quotient by zero the comparisons fail.
Proof: The quadratic splits by the discriminant. Cardano's formula as a polynomial identity modulo the equations of the cube root and the root of unity; the selection of the minimum keeps an invariant.
Result: Exact real and complex arithmetic; the complex square and cube root are any functions whose powers give back the argument. Violated by the code: a negative leading coefficient with two positive roots gives the larger one (quad_negative_violated), a double root gives -1 (quad_double_violated), a root zero hides the positive one (quad_zero_violated), a zero linear coefficient divides by zero (quad_constant_violated), a triple root gives -1 (cubic_triple_violated), nearly real pairs count as real roots (cubic_nonreal_violated). The partial theorems exclude these, and leading coefficients within the tolerance but not zero.
Theorems (axioms): `MathUtils.quad_smallest_partial` (pcq), `MathUtils.quad_negative_violated` (pcq), `MathUtils.quad_double_violated` (pcq), `MathUtils.quad_zero_violated` (pcq), `MathUtils.quad_constant_violated` (pcq), `MathUtils.cubic_roots` (pcq), `MathUtils.cubic_result` (pcq), `MathUtils.cubic_smallest_partial` (pcq), `MathUtils.cubic_quadratic` (pcq), `MathUtils.cubic_triple_violated` (pcq), `MathUtils.cubic_nonreal_violated` (pcq).

### C84 Plastic projections of the singular values — partial

Modules: `Model/Plasticity`, `Spec/Plasticity`, `Proof/Plasticity`, `Proof/PlasticityClay`, `Proof/PlasticityHarden`, `Props/Plasticity`.
Modelled: The five projections on the vector of singular values, any length, with the yield conditions stated by the stresses of the elastic models.
Proof: Orthogonal splitting into deviator and trace; triangle inequality and clamping for the nearest point. Squares mixed with their mean, and the inequality of geometric and arithmetic mean for the volume. The line from the centre of the ellipse to the trial point for the hardening.
Result: Exact real arithmetic; the Newton roots of constants are parameters. Violated by the code: Drucker-Prager resets a state compressed alike in all directions, which is in the cone, to rest (drucker_isotropic_violated), so the statement about states in the cone needs a deviator beyond the tolerance; the return of Cam-Clay uses the trial pressure, and the volume it adds can put the result outside the ellipse (clay_surface_violated). AssociativeVonMises and the decomposition into singular values around the projection are not modelled.
Theorems (axioms): `Plastic.snow_nearest` (pcq), `Plastic.snow_hardening` (pcq), `Plastic.capped_nearest` (pcq), `Plastic.capped_inside` (pcq), `Plastic.capped_rate` (pcq), `Plastic.drucker_cone` (pcq), `Plastic.drucker_volume` (pcq), `Plastic.drucker_inside_partial` (pcq), `Plastic.drucker_isotropic_violated` (pcq), `Plastic.drucker_slope` (pcq), `Plastic.vonMises_return` (pcq), `Plastic.vonMises_again` (pcq), `Plastic.clay_tip` (pcq), `Plastic.clay_inside` (pcq), `Plastic.clay_return` (pcq), `Plastic.clay_hardening` (pcq), `Plastic.clay_surface_violated` (pcq).

### C85 Smoothed friction and tangent spaces of contacts — partial

Modules: `Model/Friction`, `Spec/Friction`, `Proof/Friction`, `Props/Friction`.
Modelled: All functions of the file over the reals, columns 3b+c of TT as two indices.
Proof: Derivatives glued at the threshold from both sides; normal equations for the closest parameters; cross product identities for the bases; adjointness component by component.
Result: Exact real arithmetic. Violated by the code: above the threshold f2_SF_term is not the derivative of f1, although the comment says it is the same there (second_deriv_violated); below it is (second_deriv_partial).
Theorems (axioms): `Friction.potential_deriv` (pcq), `Friction.potential_gradient` (pcq), `Friction.friction_bounds` (pcq), `Friction.second_deriv_partial` (pcq), `Friction.second_deriv_violated` (pcq), `Friction.pp_basis` (pcq), `Friction.pe_basis` (pcq), `Friction.pt_basis` (pcq), `Friction.ee_basis` (pcq), `Friction.pe_closest` (pcq), `Friction.pt_closest` (pcq), `Friction.ee_closest` (pcq), `Friction.pp_dual` (pcq), `Friction.pe_dual` (pcq), `Friction.pt_dual` (pcq), `Friction.ee_dual` (pcq).

### C86 Affine transforms as matrices and their decomposition — partial

Modules: `Model/Transform`, `Spec/Transform`, `Proof/Transform`, `Props/Transform`.
Modelled: All members of Transform and both decompositions for any dimension.
Proof: Splitting sums over the extended index into the proper indices and the last; the four blocks of the products.
Result: Exact real arithmetic. The polar decomposition is a parameter required to multiply back; it is instantiated in two dimensions (C76). In three dimensions the one of the code multiplies back up to a tolerance, which is not carried through here.
Theorems (axioms): `Transform.compose` (pcq), `Transform.translation` (pcq), `Transform.scale` (pcq), `Transform.rotation` (pcq), `Transform.decompose_column` (pcq), `Transform.decompose_row` (pcq), `Transform.decompose_two` (pcq), `Transform.decompose_into` (pcq).

### C87 Angle between two triangles with a common edge — proved

Modules: `Model/Dihedral`, `Spec/Dihedral`, `Proof/Dihedral`, `Proof/DihedralDeriv`, `Proof/DihedralHess`, `Proof/DihedralBlocks`, `Proof/DihedralFinal`, `Props/Dihedral`.
Modelled: The three functions, with the twelve coordinates as four points of three.
Proof: The angle is the argument of a complex number made of the product of the normals and the volume; its derivative by the chain rule and polynomial identities. The Hessian splits into one part for each triangle; the parts of the blocks at the edge that are not symmetric cancel between the triangles.
Result: Exact real arithmetic; degenerate triangles are excluded. The comment in the code gives the open range (-pi, pi) and a parameter branch that does not exist; folded triangles have the angle pi (angle_extremes).
Theorems (axioms): `Dihedral.angle_turn` (pcq), `Dihedral.angle_extremes` (pcq), `Dihedral.angle_exchange` (pcq), `Dihedral.angle_rigid` (pcq), `Dihedral.gradient_deriv` (pcq), `Dihedral.gradient_balance` (pcq), `Dihedral.hessian_deriv` (pcq), `Dihedral.hessian_symm` (pcq).

### C88 Dense grids and Poisson disk sampling in the plane — partial

Modules: `Model/Poisson`, `Spec/Poisson`, `Proof/Poisson`, `Proof/PoissonRun`, `Proof/PoissonFinal`, `Props/Poisson`.
Modelled: DenseGrid in any dimension and sample for dim == 2 with its helpers; random numbers are arbitrary arguments, an access outside a vector is a separate outcome.
Proof: Invariant: every sample is registered in its cell and every cell is empty or names a sample in it. Points closer than the distance are at most two cells apart, so that the window sees them; points of one cell are always too close, so that samples are no more than cells and a measure decreases in each round.
Result: The code allocates the product of the weights instead of the product of the dimensions: in the plane one row (storage_violated), so that every call of sample is undefined (sample_violated, sample_storage_violated); the message of lines 243-244 reads a cell that need not exist (message_violated). The positive theorems are for an allocation of one cell per index without that message. Samples can lie outside the box, up to one cell (box_violated). Periodic mode reads outside the grid if there are two rows (periodic_narrow_violated) and misses close pairs unless the box is a whole number of cells wide (periodic_seam_violated). Exact real arithmetic; sampling in space from a file is not modelled.
Theorems (axioms): `Poisson.offset_inj` (pcq), `Poisson.store` (pcq), `Poisson.storage_iff` (pcq), `Poisson.storage_violated` (pcq), `Poisson.around_ring` (pcq), `Poisson.bring_inside` (pcq), `Poisson.sample_violated` (pcq), `Poisson.sample_storage_violated` (pcq), `Poisson.message_violated` (pcq), `Poisson.first_in_box` (pcq), `Poisson.sample_partial` (pcq), `Poisson.sample_exhausted` (pcq), `Poisson.check_exact` (pcq), `Poisson.box_violated` (pcq), `Poisson.periodic_narrow_violated` (pcq), `Poisson.periodic_seam_violated` (pcq).

### C89 Transfers between particles and grid — partial

Modules: `Model/Mpm`, `Spec/Mpm`, `Proof/Mpm`, `Proof/MpmStep`, `Props/Mpm`.
Modelled: LocalArena, P2GTransfer, ComputeGridBlockVelocity, GridAngularMomentum and G2PTransfer on a grid of nodes in three dimensions; atomic additions are additions in the order of a list.
Proof: Moments of the quadratic weights (sum one, first moment zero, second moment a quarter of the squared cell size), linear functionals of the grid summed over particles, and the inequality of Bessel for the projection to affine fields.
Result: Exact real arithmetic; three dimensions. The blocks of the grid and the hash table are not repeated here: a node is addressed by its coordinate. The decomposition is an argument of the corotated stress. Without a solver in between, the operations do not read the stress (step_stress).
Theorems (axioms): `Mpm.arena` (pcq), `Mpm.p2g_mass` (pcq), `Mpm.p2g_momentum` (pcq), `Mpm.p2g_angular` (pcq), `Mpm.p2g_force` (pcq), `Mpm.p2g_torque` (pcq), `Mpm.stress_power` (pcq), `Mpm.p2g_order` (pcq), `Mpm.p2g_outside` (pcq), `Mpm.eos_symmetric` (pcq), `Mpm.corotated_symmetric` (pcq), `Mpm.corotated_principal` (pcq), `Mpm.momenta_exact` (pcq), `Mpm.maxVelocity_spec` (pcq), `Mpm.g2p_affine` (pcq), `Mpm.g2p_update` (pcq), `Mpm.step_momentum` (pcq), `Mpm.step_angular` (pcq), `Mpm.step_energy` (pcq), `Mpm.step_stress` (pcq).

### C90 Matrix helpers on arrays — partial

Modules: `Model/MatrixUtils`, `Spec/MatrixUtils`, `Props/MatrixUtils`.
Modelled: All functions of the file outside of comments, entry by entry; an output in the place of an input is a sequence of updates.
Proof: Entry by entry against the matrix operations of Mathlib.
Result: vec_crossMul_vec_3D adds where the cross product subtracts (crossMul_violated). matrixCofactor3d returns the adjugate and not, like matrixCofactor2d, the cofactors (cofactor3_violated). Transpose and product may not write to their own input (inPlace_violated). Exact arithmetic.
Theorems (axioms): `MatrixUtils.mul3_eq` (pcq), `MatrixUtils.mul2_eq` (pcq), `MatrixUtils.transposeMul3_eq` (pcq), `MatrixUtils.transposeMul2_eq` (pcq), `MatrixUtils.mulTranspose3_eq` (pcq), `MatrixUtils.mulTranspose2_eq` (pcq), `MatrixUtils.mulSelfTranspose3_eq` (pcq), `MatrixUtils.mulDiag3_eq` (pcq), `MatrixUtils.mulDiag2_eq` (pcq), `MatrixUtils.matDiagMatT3_eq` (pcq), `MatrixUtils.matDiagMatT2_eq` (pcq), `MatrixUtils.mulVec3_eq` (pcq), `MatrixUtils.mulVec2_eq` (pcq), `MatrixUtils.vecMul3_eq` (pcq), `MatrixUtils.vecMul2_eq` (pcq), `MatrixUtils.matTVec3_eq` (pcq), `MatrixUtils.transpose_eq` (pcq), `MatrixUtils.trace_eq` (pcq), `MatrixUtils.det_eq` (pcq), `MatrixUtils.cofactor3_adjugate` (pcq), `MatrixUtils.cofactor2_cofactor` (pcq), `MatrixUtils.cofactor3_violated` (pcq), `MatrixUtils.cofactor3_symmetric_partial` (pcq), `MatrixUtils.crossMul_violated` (pq), `MatrixUtils.crossMul_partial` (pcq), `MatrixUtils.deviatoric_eq` (pcq), `MatrixUtils.mulDiag_inPlace` (pcq), `MatrixUtils.inPlace_violated` (p).

### C91 Stresses with plasticity — partial

Modules: `Model/Stress`, `Spec/Stress`, `Props/Stress`.
Modelled: The three functions with exact elementary functions; a logarithm of zero or a division by zero is a separate outcome.
Proof: Products of diagonal and orthogonal matrices, roots of the quadratic of the principal stresses, homogeneity of the norm.
Result: Exact real arithmetic, the decomposition is an argument. The von Mises projection does not keep the mean stress (vm_mean_violated). Sand divides by zero without shear modulus (sand_mu_violated) and changes states inside of the cone when a volume change is stored (sand_elastic_violated). Cam-Clay takes a sine instead of a hyperbolic sine, so that the yield pressure becomes negative (nacc_p0_violated); its deviatoric stress is on the surface for the trial volume only. The update of logJp of Cam-Clay is not modelled.
Theorems (axioms): `Stress.vm_stress` (pcq), `Stress.vm_yield_partial` (pcq), `Stress.vm_elastic` (pcq), `Stress.vm_mean_violated` (pcq), `Stress.sand_stress` (pcq), `Stress.sand_defined` (pcq), `Stress.sand_mu_violated` (pcq), `Stress.sand_yield_partial` (pcq), `Stress.sand_tip` (pcq), `Stress.sand_elastic_partial` (pcq), `Stress.sand_elastic_violated` (pcq), `Stress.nacc_stress` (pcq), `Stress.nacc_elastic` (pcq), `Stress.nacc_tip` (pcq), `Stress.nacc_surface_partial` (pcq), `Stress.nacc_p0_violated` (pcq).

### C92 Analytic shapes are signed distances — partial

Modules: `Model/Shapes`, `Spec/Shapes`, `Proof/Shapes`, `Props/Shapes`.
Modelled: The four shapes, the free distance function and the coordinate in a bounding box.
Proof: Triangle inequality and Cauchy-Schwarz for the Euclidean length; the nearest point by clamping coordinates or scaling the radial part; a spec of which the signed distance is the only solution (signed_unique).
Result: Exact real arithmetic. The bounding box of a plane is only its origin (plane_box_violated). The normals of cuboid and cylinder, which are finite differences, are not modelled.
Theorems (axioms): `Shapes.signed_unique` (pcq), `Shapes.plane_signed` (pcq), `Shapes.plane_box_violated` (pcq), `Shapes.cuboid_signed` (pcq), `Shapes.cuboid_distance` (pcq), `Shapes.cuboid_box` (pcq), `Shapes.cuboid_ofCenter` (pcq), `Shapes.cuboid_vert` (pcq), `Shapes.sphere_signed` (pcq), `Shapes.sphere_normal` (pcq), `Shapes.sphere_gradient` (pcq), `Shapes.sphere_box` (pcq), `Shapes.cylinder_signed` (pcq), `Shapes.cylinder_box` (pcq), `Shapes.uniform_coord` (pcq).

### C93 Tests of bounding volumes and rays — partial

Modules: `Model/Volumes`, `Spec/Volumes`, `Proof/Volumes`, `Props/Volumes`.
Modelled: All functions named, with early returns; IEEE infinities and not-a-number as extended reals with an extra value.
Proof: Intervals of extended reals per axis; convex combinations stay between the ends of the paths; Gram determinant of two edges.
Result: No rounding; infinities and not-a-number are modelled in the box test. A ray inside the plane of a face is reported wrongly in both directions (ray_box_hit_violated, ray_box_miss_violated), so ray_box_partial excludes it. The triangle test returns parameters behind the origin (ray_tri_behind_violated) and misses small triangles for every tolerance (ray_tri_small_violated). Spheres of negative radius overlap points (overlaps_negative_violated).
Theorems (axioms): `Volumes.overlaps_boxes` (pcq), `Volumes.overlaps_point` (pcq), `Volumes.overlaps_spheres` (pcq), `Volumes.overlaps_point_sphere` (pcq), `Volumes.overlaps_negative_violated` (pcq), `Volumes.merge_smallest` (pcq), `Volumes.bounding_box` (pcq), `Volumes.pt_exact` (pcq), `Volumes.ee_exact` (pcq), `Volumes.pt_conservative` (pcq), `Volumes.ee_conservative` (pcq), `Volumes.ray_tri_iff` (pcq), `Volumes.ray_tri_exact` (pcq), `Volumes.ray_tri_behind_violated` (pcq), `Volumes.ray_tri_small_violated` (pcq), `Volumes.ray_box_partial` (pcq), `Volumes.ray_box_hit_violated` (pcq), `Volumes.ray_box_miss_violated` (pcq).

### C94 Colliders — partial

Modules: `Model/Collider`, `Spec/Collider`, `Proof/Collider`, `Props/Collider`.
Modelled: The class with its level set as three functions, in any dimension, and the products with angular velocities in the plane and in space.
Proof: Derivative of a product of scale, rotation and material point; orthogonal projection of relative velocities.
Result: Exact real arithmetic. The normal of the level set is assumed to be a unit vector where contacts are resolved. The erosion is measured before scaling and is not a distance in space (sphere_erosion, erosion_violated).
Theorems (axioms): `Collider.inside_iff` (pcq), `Collider.velocity_is` (pcq), `Collider.cross_skew` (pcq), `Collider.normal_unit` (pcq), `Collider.variants` (pcq), `Collider.outside_keeps` (pcq), `Collider.inside_contact` (pcq), `Collider.inside_contact_given` (pcq), `Collider.resolve_again` (pcq), `Collider.speed_le` (pcq), `Collider.sphere_erosion` (pcq), `Collider.erosion_violated` (pcq).

### C95 Sorted bounding volumes answer neighbour queries — partial

Modules: `Model/Lbvs`, `Spec/Lbvs`, `Proof/Lbvs`, `Props/Lbvs`.
Modelled: All of the structure and its view, reads checked against the bounds.
Proof: Permutations of index lists; invariant of the binary search; the positions before the scan limit contain all overlapping boxes because keys ascend.
Result: Exact real arithmetic; loops run in order. The radix sort of line 132 is an argument: the ones of the host policies do not accept floating-point keys, so build compiles for devices only. The sequential merge sort that refit uses is proved to be such a sort (seqSort_sorts); the parallel one is not in general (C26).
Theorems (axioms): `Lbvs.seqSort_sorts` (pcq), `Lbvs.build_holds` (pcq), `Lbvs.build_axis` (pcq), `Lbvs.refit_holds` (pcq), `Lbvs.refit_mismatch` (pcq), `Lbvs.locate_exact` (pcq), `Lbvs.iter_exact` (pcq), `Lbvs.self_iter_exact` (pcq).

### C96 Fronts keep every pushed pair and reorder sorts them by node — partial

Modules: `Model/Bvtt`, `Spec/Bvtt`, `Proof/Bvtt`, `Props/Bvtt`.
Modelled: The structure, reserve, reorder and the view, with all cells of the allocation; lifetime, cloning and device code are left out.
Proof: Counting sort: the iterations done so far fill a prefix of every node's range; ranges are disjoint because offsets are partial sums of the counts.
Result: Indices do not wrap around. Two statements fail in the code, with proofs: reserve copies the size, not the capacity up to which the view stores, so stored pairs get lost (reserve_violated; reserve_partial covers the pairs up to the size), and reorder after an overflow counts at the index that stands for nothing (reorder_overflow_violated). reorder never fills the member _offsets. The exclusive scan is taken to be exact (C22). Iterations are atomic steps because they write to separate cells.
Theorems (axioms): `Bvtt.reorder_exact` (pcq), `Bvtt.reorder_sorted` (pcq), `Bvtt.reorder_overflow_violated` (pq), `Bvtt.push_exact` (pcq), `Bvtt.push_again` (pcq), `Bvtt.reserve_partial` (pcq), `Bvtt.reserve_violated` (p), `Bvtt.assign_exact` (pq), `Bvtt.create_exact` (pcq), `Bvtt.read_exact` (pcq), `Bvtt.reserve_capacity` (pq).

### C97 Buckets of particles hold every particle in the bucket of its cell — partial

Modules: `Model/Buckets`, `Spec/Buckets`, `Proof/Buckets`, `Props/Buckets`.
Modelled: The four operations, the construction, the lookup and the search.
Proof: Tables as duplicate-free lists; the distribution is the counting sort of C96; floors of numbers that differ by at most one.
Result: Exact arithmetic without overflow; table and scan by their contracts (C38, C22). bucketCoord always adds one half while the buckets are built with the displacement given by the caller: for another displacement the lookup fails (lookup_violated); lookup_partial and neighbours_exact are for one half. The search needs a radius of at most the cell width, and positions of the searched particles in the buckets; it is device code, of which the loop is modelled for one thread.
Theorems (axioms): `Buckets.sparsity_exact` (pcq), `Buckets.enlarge_exact` (pcq), `Buckets.enlarge_plane` (pcq), `Buckets.build_exact` (pcq), `Buckets.lookup_partial` (pcq), `Buckets.lookup_violated` (pcq), `Buckets.neighbours_exact` (pcq), `Buckets.range_tests` (pcq).

### C98 Every attribute of particles has one element per particle — partial

Modules: `Model/Particles`, `Spec/Particles`, `Proof/Particles`, `Props/Particles`.
Modelled: Attributes as lists of elements in a map; copies between memory spaces are exact.
Proof: Association lists and lookups; expansion of the determinant.
Result: Proved where both sets of attributes have the same names and kinds, and for gradients in space. The code breaks the rest, with proofs: attributes that only one side has end up too short (append_violated), the positions can be replaced by another kind (addAttr_violated), the determinant reads nine components in the plane (stress_plane_violated), and the changes of volume are looked up under the name of the gradient (stress_volume_violated). resize does not compile when used and is left out, and so is AppendParticles of ParticleOp.hpp (it indexes a flat vector of components twice).
Theorems (axioms): `Particles.make_consistent` (pcq), `Particles.addAttr_partial` (pcq), `Particles.addAttr_violated` (pcq), `Particles.append_partial` (pcq), `Particles.append_violated` (pq), `Particles.append_refuses` (pcq), `Particles.positions_exact` (pq), `Particles.stress_partial` (pcq), `Particles.stress_plane_violated` (pcq), `Particles.stress_volume_violated` (pq), `Particles.stress_empty_violated` (pq), `Particles.stress_none` (pq).

### C99 Shrinking and growing a sparse level set keeps exactly the right blocks — partial

Modules: `Model/LevelSetDomain`, `Spec/LevelSetDomain`, `Proof/LevelSetDomain`, `Props/LevelSetDomain`.
Modelled: The table as active keys and a query function; blocks as functions of cell and channel; loops over blocks in an arbitrary order.
Proof: Invariants of the loops for arbitrary permutations; layers by induction on the distance.
Result: Proved for grids in space that are not staggered. Shrinking is proved when at least one block has a marked cell; otherwise the code leaves the count and active keys of before beside an empty table, with proof (refit_empty_violated). Staggered grids and insertions that fail are left out.
Theorems (axioms): `LevelSetDomain.mark_exact` (pcq), `LevelSetDomain.refit_exact_partial` (pcq), `LevelSetDomain.refit_empty_violated` (pcq), `LevelSetDomain.extend_exact` (pcq).

### C100 The flood fill of a level set spreads distances by the upwind scheme — partial

Modules: `Model/Eikonal`, `Spec/Eikonal`, `Proof/Eikonal`, `Props/Eikonal`.
Modelled: Exact reals; the neighbours with a tag as a partial function of side and axis; masks as functions of coordinates.
Proof: Insertion keeps a prefix of the sorted list; square roots by nonlinear arithmetic; the scheme is strictly monotone; the overflow by evaluation.
Result: The loop is proved to keep the smallest distances in order for every dimension; the scheme with these is solved in the plane, and in space when the other distances are at least one cell more. The code breaks the rest, with proofs: in space the refinements never run because they are nested in the branch for the plane (update_space_violated), two neighbours on one axis are taken for two axes (update_axis_violated), and there is room for one seed per cell although each inner cell adds up to two per axis (seeds_violated). The search for blocks and the loop of the fill are left out.
Theorems (axioms): `Eikonal.upwind_unique` (pcq), `Eikonal.collect_exact` (pcq), `Eikonal.known_exact` (pcq), `Eikonal.update_plane_partial` (pcq), `Eikonal.update_other` (pcq), `Eikonal.update_inside` (pcq), `Eikonal.update_space_partial` (pcq), `Eikonal.update_space_violated` (pcq), `Eikonal.update_axis_violated` (pcq), `Eikonal.seeds_partial` (pq), `Eikonal.seeds_violated` (p).

### C101 The PCG generator has full period and uniform outputs — partial

Modules: `Model/Pcg`, `Proof/Pcg`, `Props/Pcg`.
Modelled: State, increment and outputs as bit vectors, with the wraparound of the code.
Proof: Powers of the multiplier and their sums modulo powers of two; the output together with the rotation and the low bits is a bijection of the states.
Result: Everything about the generator is proved in full. The dependence on the time is broken by the code, with proofs: the first number is zero for every time (call_random_violated), and the first digit of the time is shifted out of the seed because the terminating zero is shifted in (seed_violated).
Theorems (axioms): `Pcg.period` (pcq), `Pcg.states` (pcq), `Pcg.output_exact` (pq), `Pcg.equidistributed` (pcq), `Pcg.seed_exact` (pcq), `Pcg.call_random_exact` (pq), `Pcg.call_random_violated` (pq), `Pcg.seed_violated` (pcq).

### C102 Fields and tensors with several indices address each element once — partial

Modules: `Model/DenseField`, `Spec/DenseField`, `Proof/DenseField`, `Props/DenseField`.
Modelled: Factors, offsets and contents of the field with wraparound of size_t; the loop of index_to_coord; prefixes, bases and extents of tensor views.
Proof: The list of the offsets of all tuples in dictionary order is the list of the numbers below the product; induction over the shape and over the chain of brackets.
Result: Proved for shapes with fewer than 2^64 elements. A larger shape is accepted, its size wraps, and indices within the shape read outside the memory (create_violated). linearOffset and operator() of DenseFieldViewLite (py_interop/DenseFieldView.hpp lines 22-39) are the same text.
Theorems (axioms): `DenseField.create_exact` (pcq), `DenseField.read_order` (pcq), `DenseField.write_read` (pcq), `DenseField.offset_block` (pcq), `DenseField.offset_more` (pcq), `DenseField.create_violated` (pcq), `DenseField.coord_exact` (pcq), `DenseField.coord_offset` (pcq), `DenseField.chain_exact` (pcq), `DenseField.chain_view_exact` (pcq), `DenseField.view_exact` (pcq), `DenseField.val_order` (pcq), `DenseField.tensor_separate` (pcq).

### C103 Samplers return points of their domain with the right distribution — partial

Modules: `Model/Sampling`, `Spec/Sampling`, `Proof/Sampling`, `Props/Sampling`.
Modelled: The loops with a bound on the rounds, the numbers of the generator as a stream in [0,1), numbers as reals.
Proof: The loop of the search as the first index where the partial sums exceed the number; the set of numbers with a given result is an interval whose length is the probability; a rejection loop as the first accepted group of the stream.
Result: Points and rotations in full, over real numbers. rand_p is proved for integer parameters and numbers below one; for all other positive parameters, and for the number one, the loop does not end for some numbers (rand_p_violated), as the parameter is converted to int. rand_normal never returns zero or negative numbers and need not end (rand_normal_violated).
Theorems (axioms): `Sampling.poisson_exact` (pcq), `Sampling.normal_exact` (pcq), `Sampling.rand_p_exact_partial` (pcq), `Sampling.rand_p_distribution_partial` (pcq), `Sampling.rand_p_violated` (pcq), `Sampling.rand_normal_violated` (pcq), `Sampling.rand_normal_partial` (pcq), `Sampling.rand_anti_normal_exact` (pcq), `Sampling.box_exact` (pcq), `Sampling.weights_exact` (pcq), `Sampling.weights_onto` (pcq), `Sampling.ball_exact` (pcq), `Sampling.ball_onto` (pcq), `Sampling.rotation2_exact` (pcq), `Sampling.rotation3_exact` (pcq).

### C104 Iterators and accessors over tiled memory reach the cells of their channel — partial

Modules: `Model/TileIter`, `Proof/TileIter`, `Props/TileIter`.
Modelled: The iterators with members of 32 bits, the accessor with 64 bits, places as numbers of elements or bytes.
Proof: Shifts and masks of a power of two as quotient, product and remainder; the rows of a tile as disjoint ranges.
Result: Offsets are computed in 32 bits: proved when they fit, and two elements share a cell when they do not (tiles_violated). The accessor is proved for elements of a power of two bytes; for 12 bytes it is wrong (accessor_violated). The constructor of the iterator over smaller values accepts segments outside the elements (small_segment_violated), and components of vectors of smaller values are not in successive channels (small_components, small_components_violated).
Theorems (axioms): `TileIter.tiles_exact_partial` (pcq), `TileIter.structures_exact_partial` (pcq), `TileIter.tiles_violated` (pq), `TileIter.advance_exact` (pcq), `TileIter.accessor_exact_partial` (pcq), `TileIter.accessor_structures_partial` (pcq), `TileIter.accessor_violated` (pq), `TileIter.small_inside` (pq), `TileIter.small_separate` (pq), `TileIter.small_segment_violated` (none), `TileIter.small_components` (pq), `TileIter.small_components_violated` (none).

### C105 Views of degrees of freedom read what was written, as scalars and as vectors — partial

Modules: `Model/DofView`, `Proof/DofView`, `Props/DofView`.
Modelled: All four cases of the view as the cells they reach; the container as a function of channel, element and component.
Proof: Quotient and remainder by the dimension determine the cell; writing in turn to different cells.
Result: Setting vectors is proved for vectors of the extent of the view, without channels or with entries that are vectors or traits of the same dimension. For scalars in channels of a container without dimension (TileVector) the vector is not read back and other elements are overwritten (set_vector_violated), and vectors of another extent are misplaced or dropped (set_extent_violated).
Theorems (axioms): `DofView.set_get` (pq), `DofView.set_frame` (none), `DofView.vectors_of_scalars` (pq), `DofView.set_vector_partial` (pcq), `DofView.set_vector_violated` (none), `DofView.set_extent_violated` (p), `DofView.iterator_exact` (pcq).

### C106 Normals of a mesh have the direction of the sum of the normals around a vertex — partial

Modules: `Model/MeshNormal`, `Spec/MeshNormal`, `Proof/MeshNormal`, `Props/MeshNormal`.
Modelled: The operations of the triangles as a list in any order; bounds of the normals; division of zero by zero as no result.
Proof: The sums do not depend on the order; all stores to a place have one value; the sum of multiples of one direction.
Result: Over real numbers. Vertices without triangles divide zero by zero (isolated_violated), also where a normal is given for them (given_violated). The function for a part of the mesh ignores nodeOffset: proved if the triangles use the first nodeNum vertices, and it writes outside the normals otherwise (part_violated).
Theorems (axioms): `MeshNormal.normals_exact` (pcq), `MeshNormal.flat_exact` (pcq), `MeshNormal.triangle_exact` (pcq), `MeshNormal.isolated_violated` (pcq), `MeshNormal.given_exact_partial` (pcq), `MeshNormal.given_violated` (pcq), `MeshNormal.part_exact_partial` (pcq), `MeshNormal.bounds_exact` (pcq), `MeshNormal.part_get` (p), `MeshNormal.part_violated` (pcq).

### C107 Mesh files that were written are read back — partial

Modules: `Model/MeshIO`, `Spec/MeshIO`, `Proof/MeshIO`, `Props/MeshIO`.
Modelled: The texts, lines and words, the state of the reader, the arrays that load_obj fills from the result of tinyobj.
Proof: Splitting at line ends undoes writing lines; each kind of line is recognised by its first letters; normals by induction on the corners.
Result: Texts character by character; printing coordinates is a parameter, so that the loss of digits of operator<< is in rd. A VTK file with several points on a line, which the format allows, loses points (vtk_points_violated). load_obj does not shift the indices: proved for an empty mesh, and appended triangles have corners of the old mesh (load_corners_violated). Computed normals and texture coordinates of load_obj are not covered.
Theorems (axioms): `MeshIO.vtk_round_trip` (pcq), `MeshIO.vtk_last_line` (p), `MeshIO.vtk_points_violated` (p), `MeshIO.obj_exact` (pcq), `MeshIO.obj_plane_exact` (pcq), `MeshIO.load_exact` (pq), `MeshIO.load_corners_partial` (pq), `MeshIO.load_corners_violated` (p).

### C108 A copyable pointer behaves as the value it owns — partial

Modules: `Model/CopyPtr`, `Spec/CopyPtr`, `Proof/CopyPtr`, `Props/CopyPtr`.
Modelled: A heap of objects, the pointers of the variables, the addresses released to the caller; new, delete and reset in the order of the code.
Proof: An invariant (each pointer has an object of its own; each object has a pointer or was released) kept by each operation, and a refinement of the program on plain values by induction on the program.
Result: Everything but the last sentence holds. The copy constructor and the copy assignment read through the source, so copying a null pointer, which is what the default constructor makes, is undefined (copy_null_violated); proved for sources that are not null (copy_partial), and values_exact has the exact condition. Default deleters; conversions from pointers to derived types are not covered, nor copy constructors that throw.
Theorems (axioms): `CopyPtr.values_exact` (pq), `CopyPtr.owners_separate` (pq), `CopyPtr.objects_exact` (pq), `CopyPtr.released_kept` (pq), `CopyPtr.copy_partial` (pq), `CopyPtr.copy_null_violated` (none).

### C109 Geometric predicates for rays, segments, triangles and tetrahedra are exact — partial

Modules: `Model/ExactGeo`, `Spec/ExactGeo`, `Proof/ExactGeo`, `Props/ExactGeo`.
Modelled: The predicates on rational coordinates with exact determinants; the random point outside of a plane is a parameter.
Proof: Cramer's rule turns the orientations into signs of barycentric coordinates; then by the signs of the coordinates.
Result: Holds for is_triangle_degenerated, point_on_segment, point_inter_triangle, rays from outside of the plane of a triangle, phi, get_tet_phi and is_point_inside_tet. point_on_ray has <= where < is meant for the second and third component, and finds no point on any ray for which one of them is zero (ray_violated), such as the first ray of the collision tests (first_ray_violated); what depends on it is proved for rays where both are not zero (ray_exact_partial, ray_segment_exact_partial, ray_plane_exact_partial, ray_degenerate_exact_partial). For a ray in the plane the two edges at the first corner are covered, as in the code. The two-dimensional orient2d reads outside of its vectors (orient2d_violated); the other theorems take the values that it uses. The signs of determinants are exact: the adaptive arithmetic of Predicates.hpp and the rounding of differences of points are not modelled, nor the parity counts of the collision tests.
Theorems (axioms): `ExactGeo.degenerate_exact` (pcq), `ExactGeo.segment_exact` (pcq), `ExactGeo.ray_exact_partial` (pcq), `ExactGeo.ray_violated` (pcq), `ExactGeo.ray_segment_exact_partial` (pcq), `ExactGeo.triangle_exact` (pcq), `ExactGeo.ray_triangle_exact` (pcq), `ExactGeo.ray_plane_exact_partial` (pcq), `ExactGeo.ray_degenerate_exact_partial` (pcq), `ExactGeo.first_ray_violated` (pcq), `ExactGeo.phi_exact` (pcq), `ExactGeo.tet_phi_exact` (pcq), `ExactGeo.tet_exact` (pcq), `ExactGeo.orient2d_violated` (p).

### C110 Exact collision tests of moving vertices, faces and edges report exactly the contacts — partial

Modules: `Model/ExactCcd`, `Spec/ExactCcd`, `Proof/ExactCcd`, `Props/ExactCcd`.
Modelled: The two tests with all functions that they call, on rational coordinates with exact determinants; the points outside of planes and the drawn directions are parameters.
Proof: Boxes: convex combinations of numbers of one sign. Contacts: the exactness theorems of C109 show that a patch or a triangle answers 2. Violations: the patches of the witnesses are plane and away from the origin, so that nothing depends on the parameters; then by computation.
Result: Violated in both directions. For a plane patch ray_degenerated_bilinear_parity makes the edge between the second and third corner half-open, which is a border of the patch and not its diagonal; a ray through it is counted as a hit (plane_edge_violated) where it should be shot again. Two patches of the prism, and two of the hexahedron, share such an edge, which is then counted twice. So vertexFaceCCD misses a vertex that goes through the interior of a face at rest (vf_missed_violated) and reports a contact where there is none (vf_false_violated), and edgeEdgeCCD too (ee_missed_violated, ee_false_violated), whatever is drawn; the witnesses have small integer coordinates, no degenerate triangle, and do not depend on the faults of point_on_ray and orient2d. Proved: the boxes reject no contact; contacts at the start and the end with faces that are not degenerate, and contacts inside of patches that are not flat, are reported unless all eight rays are undecided (in which case the code returns false); the kinds of flat patches; the parity of rays from outside of the plane of a plane patch; the answer for rays from inside of the tetrahedron of a patch that is not flat (inside_exact), for rays from outside through the interiors of two of its facets (outside_exact) and past it (outside_miss_exact). A second defect: a ray from outside that leaves the tetrahedron through the diagonal 0-2 gets the parity 0 where it goes through the patch once (diagonal_violated), so vertexFaceCCD also misses a contact with a patch that is not flat (vf_curved_violated). As only the parity is counted, a vertex that goes through a face twice is reported as no contact (vf_twice_violated). Missing: rays from outside through the other edges and corners of a tetrahedron or from the planes of its facets 0 and 1, folded patches (a wrong rayXor survives all theorems, see seeded/LOG.jsonl), and that the sum over all patches and triangles is right for rays that meet no edge.
Theorems (axioms): `ExactCcd.vf_box_sound` (pcq), `ExactCcd.ee_box_sound` (pcq), `ExactCcd.vf_ends_partial` (pcq), `ExactCcd.vf_edges_partial` (pcq), `ExactCcd.ee_border_partial` (pcq), `ExactCcd.degeneration_exact` (pcq), `ExactCcd.plane_exact_partial` (pcq), `ExactCcd.plane_edge_violated` (pcq), `ExactCcd.vf_missed_violated` (pcq), `ExactCcd.vf_false_violated` (pcq), `ExactCcd.ee_missed_violated` (pcq), `ExactCcd.ee_false_violated` (pcq), `ExactCcd.inside_exact` (pcq), `ExactCcd.outside_exact` (pcq), `ExactCcd.outside_miss_exact` (pcq), `ExactCcd.diagonal_violated` (pcq), `ExactCcd.vf_curved_violated` (pcq), `ExactCcd.vf_twice_violated` (pcq), `ExactCcd.degeneration_line_exact` (pcq), `ExactCcd.triangle_weights` (pcq), `ExactCcd.outer_edge_exact` (pcq), `ExactCcd.diagonal_exact` (pcq), `ExactCcd.triangle_line_exact` (pcq).

### C111 Scenes become simulators with every set of particles in its group, with its model and a stable time step — partial

Modules: `Model/MpmSetup`, `Spec/MpmSetup`, `Proof/MpmSetup`, `Props/MpmSetup`.
Modelled: The builder of particles as a sequence of calls, commit, addScene, the search for memories and models with the groups, the number of blocks and the time step with the Newton iteration of C82.
Proof: Induction over the calls with the sets that are not yet committed; an invariant of the groups over the sets seen so far; the bounds of the square root of C82.
Result: Proved: the sets of particles with memories, configurations and models (setup_exact), the groups (groups_exact, group_unique, blocks_exact), and the time step for solids whose squared wave speed is at least the constant of sqrtNewtonRaphson (dt_stable_partial, dt_attained). Violated: particles of Drucker-Prager get no logJp, because the index of the variant, which has no alternative for StvkWithHencky, is compared with the enumerator (plasticity_violated, plasticity_scene_violated); a further scene replaces the boundaries of the scenes before (boundaries_violated); fluids do not limit the time step (dt_fluid_violated), nor do solids with slow waves (dt_slow_violated). Exact real arithmetic; a number of scenes whose particle sets fit an int. The sampling of positions and the builders of boundaries are not modelled.
Theorems (axioms): `MpmSetup.setup_exact` (pcq), `MpmSetup.groups_exact` (pcq), `MpmSetup.group_unique` (pcq), `MpmSetup.attributes_partial` (pcq), `MpmSetup.plasticity_violated` (pcq), `MpmSetup.plasticity_scene_violated` (pcq), `MpmSetup.boundaries_partial` (pcq), `MpmSetup.boundaries_violated` (pcq), `MpmSetup.speed_exact` (pcq), `MpmSetup.dt_stable_partial` (pcq), `MpmSetup.dt_attained` (pcq), `MpmSetup.dt_fluid_violated` (pcq), `MpmSetup.dt_slow_violated` (pcq), `MpmSetup.blocks_exact` (pcq).

### C112 A visitor of several variants is called once, with the alternatives they hold — proved

Modules: `Model/VariantDispatch`, `Proof/VariantDispatch`, `Props/VariantDispatch`.
Modelled: The recursion over template arguments as a recursive function that returns the calls.
Proof: Induction over the number of variants that are still open and over the index of the current one.
Result: All numbers of variants and alternatives. A variant without value is not reported: nothing is called (valueless_silent), where std::visit throws. CheckCallable is a parameter; it tests rvalues although lvalues are passed. FSM::dispatch of FiniteStateMachine.h calls match with the variant in place of the functions, cannot be compiled, and is not modelled.
Theorems (axioms): `VariantDispatch.dispatch_exact` (pcq), `VariantDispatch.dispatch_once` (pcq), `VariantDispatch.valueless_silent` (pcq).

### C113 Views of tiled vectors in compiled kernels reach the cells of the layout — partial

Modules: `Model/LiteTile`, `Spec/LiteTile`, `Proof/LiteTile`, `Props/LiteTile`.
Modelled: Address arithmetic modulo 2^64, memory as a list with reads outside of it as a separate outcome; the layout is specified as the list of (channel, element) in the order of the cells.
Proof: Indexing into nested flatMap; the bounds of the vector exclude wrap-around; prefix sums for the properties.
Result: Exact for channels and elements of the vector and for names of its properties. Without any check: a name that is no property reads the arrays of offsets and sizes behind their end (unknown_violated), and a channel beyond the size of a property is a cell of another property (beyond_violated). The tuple of a view of constant memory refers to mutable values because of a C-style cast, and tile of a named view of constant memory cannot be compiled; constness and the types TT are not modelled. int sums of offset and channel are taken not to overflow.
Theorems (axioms): `LiteTile.read_exact` (pcq), `LiteTile.read3_exact` (pcq), `LiteTile.cells_distinct` (pcq), `LiteTile.tile_exact` (pcq), `LiteTile.pack_exact` (pcq), `LiteTile.tuple_exact` (pcq), `LiteTile.tile_at` (pq), `LiteTile.tile_pack_exact` (pcq), `LiteTile.tile_tuple_exact` (pcq), `LiteTile.has_exact` (pq), `LiteTile.index_exact` (pq), `LiteTile.tagged_index` (pq), `LiteTile.named_exact` (pcq), `LiteTile.named_distinct` (pcq), `LiteTile.named_tile_exact` (pcq), `LiteTile.unknown_violated` (pq), `LiteTile.sample_tagged` (pq), `LiteTile.beyond_violated` (p).

### C114 Vector functions on pointers write the vector they are named after, and only that — partial

Modules: `Model/VecUtil`, `Props/VecUtil`.
Modelled: Memory as a function of the position; assignments one after the other, so that overlapping arguments are covered.
Proof: Cases on the comparisons; squares of the compared absolute values.
Result: All vectors, exact rational arithmetic; input and output of orthogonalVector and cross must not overlap: in place the results are not orthogonal (cross_alias_violated, orthogonal_alias_violated), which nothing in the code excludes. vectorCopy is also correct in place. abs is unqualified in the code and taken to be the absolute value of the number; accesses outside of memory and rounding are not modelled.
Theorems (axioms): `VecUtil.orthogonal_exact` (pcq), `VecUtil.orthogonal_nonzero` (pcq), `VecUtil.cross_exact` (pcq), `VecUtil.cross_alias_violated` (pcq), `VecUtil.orthogonal_alias_violated` (pcq), `VecUtil.copy_exact` (pcq), `VecUtil.sgn_exact` (pcq).

### C115 The name of a type is the part of the function name between its brackets — partial

Modules: `Model/TypeName`, `Spec/TypeName`, `Proof/TypeName`, `Props/TypeName`.
Modelled: Strings as lists of characters before the terminating zero; both loops with their counter, and the copy of the text.
Proof: Induction on the text between the brackets with the count as depth of the text read so far.
Result: All strings whose text between the brackets is balanced. A string without the left bracket is read behind its terminating zero (missing_violated), and a right bracket that is a comparison ends the arguments early (comparison_violated). The fixed starts are proved for the forms of __PRETTY_FUNCTION__ that gcc and clang are taken to give, which are assumptions about the compilers; the start for nvcc is not modelled, since the branch for gcc comes first where both macros are defined. The counters are natural numbers.
Theorems (axioms): `TypeName.locate_exact` (pcq), `TypeName.locate_open` (pcq), `TypeName.brackets_exact` (pcq), `TypeName.fixed_exact` (pq), `TypeName.clang_exact` (pcq), `TypeName.gcc_exact` (pcq), `TypeName.missing_violated` (pq), `TypeName.comparison_violated` (pcq).

### C116 The hash table view for compiled kernels gives each key one index — partial

Modules: `Model/LiteBht`, `Proof/LiteBht`, `Props/LiteBht`.
Modelled: Buckets as lists of key and index; the rounds of insert and query, the counter, the recorded keys and the flag.
Proof: Invariant: a key that is found is reached through full buckets; induction on the insertions.
Result: One thread (calls by several threads are in C36 and C37, for the container), default arguments, keys other than the sentinel; a bucket is the list of its filled slots. Unlike the container, the view gives out the indices within 20 of the table size without a failure (limit_violated), and without buckets a refusal leaves the flag set (flag_violated). The branch for devices names types that BhtViewLite does not declare and is left out.
Theorems (axioms): `LiteBht.insert_exact` (pq), `LiteBht.insert_query` (pq), `LiteBht.insert_others` (pq), `LiteBht.active_exact` (pq), `LiteBht.count_bound` (pq), `LiteBht.flag_exact` (pq), `LiteBht.limit_violated` (none), `LiteBht.flag_violated` (none).

### C117 Bits are gathered and scattered by a mask — partial

Modules: `Model/BitPack`, `Spec/BitPack`, `Proof/BitPack`, `Props/BitPack`.
Modelled: Bit vectors; the loops over the reversed mask, shifts by 64 or more as undefined.
Proof: Invariant of each loop: what is left of the mask is the reversed mask shifted by the places passed; bit by bit.
Result: All masks except zero and the one with the highest bit only, for which the code shifts by 64 (edge_violated). The result of bit_pack_cuda is cut to 32 bits as in the code, and the data of bit_spread_cuda is an int, so that masks with more than 32 bits get its sign. The intrinsics of the device are taken to do what their names say.
Theorems (axioms): `BitPack.pack_exact` (pcq), `BitPack.spread_exact` (pcq), `BitPack.pack_spread` (pcq), `BitPack.spread_pack` (pcq), `BitPack.edge_violated` (pq).

## Not modelled

CUDA/SYCL/OpenACC/MUSA/Vulkan back ends and every device branch; the JIT and Python bindings; dynamic
loading; profiling and logging; file formats (`io`); `math/matrix` eigen/SVD/QR and everything that is only
floating point; `ZpcTuple`, `ZpcMeta` and other compile-time machinery; serialisation; plugins.
