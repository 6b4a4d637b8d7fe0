{
 "claims": [
  {
   "property": "C01",
   "status": "proved",
   "theorems": [
    "Verif.RingBuffer.ringBuffer_refines_deque",
    "Verif.RingBuffer.ringBuffer_indices_in_range",
    "Verif.RingBuffer.ringBuffer1_head_unbounded_violated"
   ],
   "note": "For capacity 1 the head counter is shown to grow without bound (signed overflow after 2^31-1 pushes)."
  },
  {
   "property": "C03",
   "status": "proved",
   "theorems": [
    "Verif.Hash.unhash32_hash32",
    "Verif.Hash.hash32_unhash32",
    "Verif.Hash.hash32_injective"
   ],
   "note": ""
  },
  {
   "property": "C04",
   "status": "proved",
   "theorems": [
    "Verif.Hash.unhash64_hash64",
    "Verif.Hash.hash64_unhash64",
    "Verif.Hash.hash64_injective",
    "Verif.Hash.hashI64_collides",
    "Verif.Hash.hashI64_nonneg",
    "Verif.Hash.hashI64_collides_further",
    "Verif.Hash.hashI64_not_injective_violated"
   ],
   "note": "Holds for the unsigned overload; the signed overload is shown not injective (arithmetic shift)."
  },
  {
   "property": "C05",
   "status": "proved",
   "theorems": [
    "Verif.Bits.morton64_getLsbD",
    "Verif.Bits.morton32_getLsbD",
    "Verif.Bits.morton32_out_of_range_collides",
    "Verif.Bits.compact_expand64",
    "Verif.Bits.compact_expand32",
    "Verif.Bits.morton64_injective",
    "Verif.Bits.morton32_injective",
    "Verif.Bits.morton64_strictMono",
    "Verif.Bits.morton32_strictMono"
   ],
   "note": ""
  },
  {
   "property": "C06",
   "status": "proved",
   "theorems": [
    "Verif.Bits.roundDown_spec",
    "Verif.Bits.roundUp_spec",
    "Verif.Bits.roundUp_overflow_violated",
    "Verif.Bits.bitLength_spec",
    "Verif.Bits.bitCount_spec",
    "Verif.Bits.next2pow_spec",
    "Verif.Bits.next2pow_zero",
    "Verif.Bits.next2pow_ub",
    "Verif.Bits.nextPowerOfTwo_spec",
    "Verif.Bits.nextPowerOfTwo_bigger_violated"
   ],
   "note": "The _violated theorems record the overflow of round_up and that the source comment 'bigger than' is wrong for powers of two."
  },
  {
   "property": "C07",
   "status": "proved",
   "theorems": [
    "Verif.Bits.binaryReverse_getLsbD",
    "Verif.Bits.binaryReverse_involutive",
    "Verif.Bits.countLeadingZeros_spec",
    "Verif.Bits.numBitsOn_spec",
    "Verif.Bits.isBitOn_spec",
    "Verif.Bits.interleavedBitMask_spec"
   ],
   "note": ""
  },
  {
   "property": "C56",
   "status": "proved",
   "theorems": [
    "Verif.Hash.twangUnmix64_twangMix64",
    "Verif.Hash.twangMix64_twangUnmix64",
    "Verif.Hash.twangMix64_injective",
    "Verif.Hash.hashCombine32_injective",
    "Verif.Hash.hashCombine64_injective"
   ],
   "note": ""
  },
  {
   "property": "C02",
   "status": "proved",
   "theorems": [
    "Verif.SmallString.ofChars_spec",
    "Verif.SmallString.ofSized_spec",
    "Verif.SmallString.size_spec",
    "Verif.SmallString.eqChars_spec",
    "Verif.SmallString.plus_spec"
   ],
   "note": ""
  },
  {
   "property": "C08",
   "status": "proved",
   "theorems": [
    "Verif.BitMask.isOn_spec",
    "Verif.BitMask.findOn_spec",
    "Verif.BitMask.findFirstOn_least",
    "Verif.BitMask.findOff_spec",
    "Verif.BitMask.findFirstOff_least",
    "Verif.BitMask.countOffset_spec",
    "Verif.BitMask.countOn_spec",
    "Verif.BitMask.countOn_exact",
    "Verif.BitMask.countOffset_size_violated"
   ],
   "note": "countOffset at exactly Size (multiple of 64) reads past the array and is recorded as violated; it lies outside the quantifier."
  },
  {
   "property": "C09",
   "status": "partial",
   "theorems": [
    "Verif.BitMask.countOn_aligned_partial",
    "Verif.BitMask.isOnAll_aligned_partial",
    "Verif.BitMask.eq_spec",
    "Verif.BitMask.isOffAll_spec",
    "Verif.BitMask.countOn_setOnAll_violated",
    "Verif.BitMask.eq_setOnAll_violated"
   ],
   "note": "Holds when Size is a multiple of 64; for every other Size setOn() makes countOn() exceed Size (violated)."
  },
  {
   "property": "C10",
   "status": "partial",
   "theorems": [
    "Verif.Callbacks.call_spec",
    "Verif.Callbacks.insert_fresh",
    "Verif.Callbacks.insert_called",
    "Verif.Callbacks.nonEmpty_spec",
    "Verif.Callbacks.insert_after_assign_violated"
   ],
   "note": "Holds for histories in which assign uses identifiers issued earlier; otherwise insert may return an id in use (violated)."
  },
  {
   "property": "C11",
   "status": "partial",
   "theorems": [
    "Verif.Iter.range_seq_partial",
    "Verif.Iter.range2_seq",
    "Verif.Iter.range_par_unit_partial",
    "Verif.Iter.range_drops_last_violated",
    "Verif.Iter.range_away_violated",
    "Verif.Iter.range_par_stride_violated",
    "Verif.Iter.range_par_descending_violated"
   ],
   "note": "Holds sequentially when step divides end-begin, and in parallel for unit step; all other cases violated with witnesses."
  },
  {
   "property": "C12",
   "status": "partial",
   "theorems": [
    "Verif.Iter.collapse_visits",
    "Verif.Iter.collapse_lex_partial",
    "Verif.Iter.collapse_zero_violated",
    "Verif.Iter.mem_tuples"
   ],
   "note": "Holds when the inner extents are positive; a zero inner extent is still visited (violated)."
  },
  {
   "property": "C13",
   "status": "proved",
   "theorems": [
    "Verif.Iter.zip_spec",
    "Verif.Iter.zipDist_spec"
   ],
   "note": ""
  },
  {
   "property": "C14",
   "status": "partial",
   "theorems": [
    "Verif.Iter.chunk_par_partial",
    "Verif.Iter.chunk_seq_violated"
   ],
   "note": "Distance-based traversal partitions; sequential traversal never terminates properly (violated)."
  },
  {
   "property": "C59",
   "status": "partial",
   "theorems": [
    "Verif.BitMask.reverseBits_violated",
    "Verif.BitMask.reverseBits_zero_partial"
   ],
   "note": "The host implementation shifts by wrong amounts: wrong for every non-zero word; right for zero only."
  },
  {
   "property": "C60",
   "status": "proved",
   "theorems": [
    "Verif.BitMask.ctzSoft64_spec",
    "Verif.BitMask.ctzSoft32_spec",
    "Verif.BitMask.ctzSoft8_spec"
   ],
   "note": ""
  },
  {
   "property": "C15",
   "status": "proved",
   "theorems": [
    "Verif.Rational.gcd_spec",
    "Verif.Rational.lcm_spec",
    "Verif.Rational.lcm_zero_violated",
    "Verif.Rational.powIntegral_spec",
    "Verif.Rational.powIntegral_max_violated"
   ],
   "note": "Exponents below the maximum of the exponent type; lcm(0,0) divides by zero and the maximal exponent returns the infinity constant (recorded as violated)."
  },
  {
   "property": "C16",
   "status": "proved",
   "theorems": [
    "Verif.Rational.add_exact",
    "Verif.Rational.sub_exact",
    "Verif.Rational.mul_exact",
    "Verif.Rational.div_exact",
    "Verif.Rational.neg_exact",
    "Verif.Rational.mk_spec"
   ],
   "note": ""
  },
  {
   "property": "C17",
   "status": "partial",
   "theorems": [
    "Verif.Rational.mk_spec",
    "Verif.Rational.neg_exact",
    "Verif.Rational.div_canonical",
    "Verif.Rational.add_canonical_partial",
    "Verif.Rational.sub_canonical_partial",
    "Verif.Rational.mul_canonical_partial",
    "Verif.Rational.eq_spec",
    "Verif.Rational.getSign_spec",
    "Verif.Rational.add_canonical_violated",
    "Verif.Rational.mul_canonical_violated"
   ],
   "note": "Lowest terms always hold; a positive denominator fails for some negative sums/products because gcd may be negative."
  },
  {
   "property": "C18",
   "status": "proved",
   "theorems": [
    "Verif.Rational.lt_spec",
    "Verif.Rational.gt_spec",
    "Verif.Rational.lt_negative_violated",
    "Verif.Rational.lt_diverges_violated"
   ],
   "note": "For positive denominators as stated; the _violated theorems show the class itself produces negative denominators for which < is wrong or diverges."
  },
  {
   "property": "C19",
   "status": "partial",
   "theorems": [
    "Verif.NumCCD.add_exact",
    "Verif.NumCCD.add_wrap_violated",
    "Verif.NumCCD.lt_exact",
    "Verif.NumCCD.lt_overflow_violated",
    "Verif.NumCCD.le_exact",
    "Verif.NumCCD.le_unreduced_violated",
    "Verif.NumCCD.isSumLeq1_exact",
    "Verif.NumCCD.bisect_exact"
   ],
   "note": "Addition is wrong when equal denominators add to a non-zero multiple of 2 (exponent wraps); <= is wrong on unreduced operands; everything used on intervals inside [0,1] is exact."
  },
  {
   "property": "C20",
   "status": "partial",
   "theorems": [
    "Verif.NumCCD.pop_partial",
    "Verif.NumCCD.pop_latest_violated",
    "Verif.NumCCD.dfs_not_earliest_violated",
    "Verif.NumCCD.bfs_reports_late_violated"
   ],
   "note": "No box is lost, but the work list hands out the latest box, so the reported time is not the earliest."
  },
  {
   "property": "C61",
   "status": "proved",
   "theorems": [
    "Verif.NumCCD.dfs_conservative",
    "Verif.NumCCD.bfs_conservative",
    "Verif.NumCCD.lt_overflow_violated"
   ],
   "note": "The breadth-first finder is covered down to time intervals of length 2^-61."
  },
  {
   "property": "C21",
   "status": "partial",
   "theorems": [
    "Verif.Scan.inclusive_scan_parallel_partial",
    "Verif.Scan.inclusive_scan_has_run",
    "Verif.Scan.inclusive_scan_sequential",
    "Verif.Scan.inclusive_scan_noncommutative_violated"
   ],
   "note": "Proved for commuting operations under every schedule, in place or not; for an associative operation that does not commute the parallel scan gives a different result (witness proved). Sequential policy proved for all operations."
  },
  {
   "property": "C22",
   "status": "partial",
   "theorems": [
    "Verif.Scan.exclusive_scan_parallel_partial",
    "Verif.Scan.exclusive_scan_sequential",
    "Verif.Scan.exclusive_scan_init_violated",
    "Verif.Scan.exclusive_scan_in_place_violated",
    "Verif.Scan.exclusive_scan_sequential_in_place_violated"
   ],
   "note": "Proved when init is the identity, op commutes and the ranges are separate; witnesses show other init values and in-place use give wrong results."
  },
  {
   "property": "C23",
   "status": "partial",
   "theorems": [
    "Verif.Scan.reduce_parallel_partial",
    "Verif.Scan.reduce_sequential",
    "Verif.Scan.reduce_init_violated"
   ],
   "note": "Proved for associative op with identity init under every schedule; other init values are applied once per thread (witness proved)."
  },
  {
   "property": "C24",
   "status": "proved",
   "theorems": [
    "Verif.Radix.radix_sort_stable",
    "Verif.Radix.radix_sort_has_run",
    "Verif.Radix.radix_sort_sequential_stable",
    "Verif.Radix.radix_sort_deterministic"
   ],
   "note": "All thread counts and schedules (threads may differ per pass), in place or not, any bit window; keys with values."
  },
  {
   "property": "C25",
   "status": "proved",
   "theorems": [
    "Verif.Radix.radix_sort_signed",
    "Verif.Radix.radix_sort_signed_sequential"
   ],
   "note": "Full bit range; numeric order and stability."
  },
  {
   "property": "C26",
   "status": "partial",
   "theorems": [
    "Verif.MergeSort.merge_sort_parallel_partial",
    "Verif.MergeSort.merge_sort_even_chunks_partial",
    "Verif.MergeSort.merge_sort_one_thread",
    "Verif.MergeSort.merge_sort_has_run",
    "Verif.MergeSort.merge_sort_pair_sequential",
    "Verif.MergeSort.merge_sort_two_threads_violated"
   ],
   "note": "Sequential policy and all parallel runs whose threads end their local sorts in the same buffer (in particular when the thread count divides the length): stable sort under every schedule. In the other cases the code gives wrong results: proved for 513 elements and 2 threads."
  },
  {
   "property": "C27",
   "status": "partial",
   "theorems": [
    "Verif.MergeSort.sort_pair_sequential_partial",
    "Verif.MergeSort.sort_pair_parallel_partial",
    "Verif.MergeSort.sort_parallel",
    "Verif.MergeSort.sort_pair_comparator_violated"
   ],
   "note": "sort_pair sorts by operator< (proved, sequential and all parallel runs); the comparison passed in is ignored by the quick sort (witness proved). The parallel sort is proved for every comparison given the contract of std::sort."
  },
  {
   "property": "C28",
   "status": "partial",
   "theorems": [
    "Verif.Vector.vector_refines_partial",
    "Verif.Vector.vector_storage_owned",
    "Verif.Vector.vector_amortized",
    "Verif.Vector.push_own_element_violated",
    "Verif.Vector.reorder_size_violated"
   ],
   "note": "Refinement, memory safety, no shared or leaked storage and logarithmic reallocation for every history of calls on any number of vectors; excluded because the code breaks: push_back of an own element at full capacity (use after free) and reorder with spare capacity (size becomes capacity). Conventional allocator, trivially copyable elements."
  },
  {
   "property": "C29",
   "status": "partial",
   "theorems": [
    "Verif.TileVector.tile_vector_refines_partial",
    "Verif.TileVector.cells_independent",
    "Verif.TileVector.tile_views_agree",
    "Verif.TileVector.property_columns_partition",
    "Verif.TileVector.append_rejects_iff",
    "Verif.TileVector.append_keeps_properties",
    "Verif.TileVector.named_write_isolated",
    "Verif.TileVector.copy_no_channels_violated"
   ],
   "note": "All tile lengths, tag lists, sizes, histories and iteration orders, host side, conventional allocator. Excluded because the code breaks: copying a container without channels divides by zero."
  },
  {
   "property": "C30",
   "status": "partial",
   "theorems": [
    "Verif.Function.function_calls_latest_partial",
    "Verif.Function.function_unshared_partial",
    "Verif.Function.function_destroys_once_partial",
    "Verif.Function.copy_assign_leaks_violated",
    "Verif.Function.move_assign_leaks_violated",
    "Verif.Function.self_assign_violated",
    "Verif.Function.throwing_assign_violated",
    "Verif.Function.assign_empty_violated"
   ],
   "note": "Histories over any number of function objects. Excluded because the code breaks (witnesses proved): copy/move assignment over a held callable leaks it, non-const self-assignment uses a destroyed callable, a throwing assignment destroys twice, assigning from a non-const empty function yields a non-empty one. swap does not compile and is not modelled; callables are assumed trivially relocatable as the code does."
  },
  {
   "property": "C31",
   "status": "proved",
   "theorems": [
    "Verif.UniquePtr.unique_ptr_refines",
    "Verif.UniquePtr.unique_ptr_owns_once",
    "Verif.UniquePtr.unique_ptr_no_leak"
   ],
   "note": "Any number of pointers with stateful deleters; conversions between pointer types are not modelled."
  },
  {
   "property": "C32",
   "status": "partial",
   "theorems": [
    "Verif.Mutex.mutex_exclusion_partial",
    "Verif.Mutex.mutex_word",
    "Verif.Mutex.mutex_free_available",
    "Verif.Mutex.mutex_unlock_frees"
   ],
   "note": "Mutual exclusion for every interleaving, stale relaxed loads, spurious compare-exchange failures and wake-ups at arbitrary times. Partial because sleeping is abstract: the parking lot itself has undefined behaviour with two sleepers (C33)."
  },
  {
   "property": "C33",
   "status": "partial",
   "theorems": [
    "Verif.ParkingLot.unpark_single_partial",
    "Verif.ParkingLot.two_waiters_violated",
    "Verif.ParkingLot.other_key_violated",
    "Verif.ParkingLot.notify_all_twice_violated",
    "Verif.ParkingLot.timeout_violated",
    "Verif.ParkingLot.woken_node_kept_violated"
   ],
   "note": "Right for queues with one waiting thread at a time, no timeout and no remove-and-continue; unpark erases the node after the one it wakes, so with two waiters, with notify_all used twice or with a timeout the code uses or deletes nodes it must not (witnesses proved)."
  },
  {
   "property": "C34",
   "status": "partial",
   "theorems": [
    "Verif.Atomics.atomics_linearizable_partial",
    "Verif.Atomics.atomics_linearizable_int",
    "Verif.Atomics.atomics_linearizable_f32_partial",
    "Verif.Atomics.atomics_final",
    "Verif.Atomics.atomic_add_total",
    "Verif.Atomics.atomic_max_negative_zero_violated"
   ],
   "note": "Complete for integers (and for floating point addition, whose loop compares bit patterns); for float max/min when negative zero does not occur, because the loops compare with != (lost update with -0 proved)."
  },
  {
   "property": "C35",
   "status": "proved",
   "theorems": [
    "Verif.Queue.queue_fifo",
    "Verif.Queue.queue_values",
    "Verif.Queue.queue_calls",
    "Verif.Queue.queue_no_lost_wakeup",
    "Verif.Queue.queue_quiet_empty",
    "Verif.Queue.queue_exclusive"
   ],
   "note": "Every interleaving at the granularity of mutex, container and condition variable operations, with spurious wake-ups; element copies do not throw."
  },
  {
   "property": "C40",
   "status": "partial",
   "theorems": [
    "Verif.RBTree.rbtree_history",
    "Verif.RBTree.rbtree_step",
    "Verif.RBTree.rbtree_get",
    "Verif.RBTree.rbtree_contents",
    "Verif.RBTree.rbtree_count_partial",
    "Verif.RBTree.rbtree_count_violated",
    "Verif.RBTree.rbtree_erase",
    "Verif.RBTree.rbtree_subscript",
    "Verif.RBTree.rbtree_destruct"
   ],
   "note": "Proved for every history of insert, assignment through [], [], erase by key, by iterator and by range, and clear: no undefined behaviour, get/forEach/size/empty/erase/[] agree with the abstract map, the destructor frees every node once. count agrees on non-empty maps only: on an empty map it dereferences the null root (rbtree_count_violated)."
  },
  {
   "property": "C41",
   "status": "proved",
   "theorems": [
    "Verif.RBTree.rbtree_balanced",
    "Verif.RBTree.rbtree_lookup_steps"
   ],
   "note": "For every history, on the node heap."
  },
  {
   "property": "C42",
   "status": "proved",
   "theorems": [
    "Verif.RBTree.rbtree_iterate",
    "Verif.RBTree.rbtree_lower_bound",
    "Verif.RBTree.rbtree_upper_bound",
    "Verif.RBTree.rbtree_decrement",
    "Verif.RBTree.rbtree_decrement_end",
    "Verif.RBTree.rbtree_const_reverse_decrement_violated",
    "Verif.RBTree.rbtree_erase_at",
    "Verif.RBTree.rbtree_erase_range",
    "Verif.RBTree.rbtree_erase_stable",
    "Verif.RBTree.rbtree_insert_stable"
   ],
   "note": "For every history. Beyond the statement: decrements, iterator stability, and that the constant reverse iterator's -- at crend() goes to the wrong end (violated)."
  },
  {
   "property": "C36",
   "status": "partial",
   "theorems": [
    "Verif.Bht.bht_insert_dense_partial",
    "Verif.Bht.bht_insert_once",
    "Verif.Bht.bht_insert_safe",
    "Verif.Bht.bht_insert_wait_free",
    "Verif.Bht.bht_success_flag",
    "Verif.Bht.bht_insert_refused",
    "Verif.Bht.bht_insert_room",
    "Verif.Bht.bht_capacity",
    "Verif.Bht.bht_sentinel_key_violated",
    "Verif.Bht.bht_switch_word",
    "Verif.Bht.bht_switch_padded_violated",
    "Verif.BhtLock.bht_lock_linearizable",
    "Verif.BhtLock.bht_lock_no_tearing"
   ],
   "note": "Host insertion, every interleaving, number of calls, keys and hash functions, with stale loads; keys that differ from the sentinel. A key equal to the sentinel is reported as present without being inserted, and padded keys can be lost because the compare-and-swap includes uninitialised padding (both proved). The device tile_insert is not modelled. Also proved: no access outside the arrays, wait-freedom, the success flag, exactly when an insertion is refused (never for fewer keys than a bucket has slots), atomicity of the slot lock for wide keys."
  },
  {
   "property": "C37",
   "status": "partial",
   "theorems": [
    "Verif.Bht.bht_query_partial",
    "Verif.Bht.bht_query_inserted",
    "Verif.Bht.bht_query_absent",
    "Verif.Bht.bht_reinsert",
    "Verif.Bht.bht_resize_partial",
    "Verif.Bht.bht_resize_safe",
    "Verif.Bht.bht_table_size",
    "Verif.Bht.bht_sentinel_key_violated",
    "Verif.Bht.bht_dictionary",
    "Verif.Bht.bht_numbers_kept_insert",
    "Verif.Bht.bht_numbers_kept_resize"
   ],
   "note": "Every set of keys other than the sentinel and all hash functions, for insertions and resize runs that report no failure; query of the sentinel returns an arbitrary index (violated)."
  },
  {
   "property": "C43",
   "status": "proved",
   "theorems": [
    "Verif.UnionFind.union_find_components",
    "Verif.UnionFind.union_find_safe",
    "Verif.UnionFind.union_find_wait_free",
    "Verif.UnionFind.union_find_asymmetric_violated"
   ],
   "note": "Every symmetric graph, interleaving of single accesses, and arbitrarily stale plain reads; representatives are the smallest vertices; every task is wait-free. Without symmetry the result is wrong (proved on a witness), as the statement assumes."
  },
  {
   "property": "C44",
   "status": "partial",
   "theorems": [
    "Verif.Coloring.coloring_terminates",
    "Verif.Coloring.fast_complete",
    "Verif.Coloring.fast_proper_partial",
    "Verif.Coloring.fast_deterministic",
    "Verif.Coloring.maximum_complete",
    "Verif.Coloring.maximum_proper_partial",
    "Verif.Coloring.maximum_maximal",
    "Verif.Coloring.maximum_degree",
    "Verif.Coloring.maximum_deterministic",
    "Verif.Coloring.fast_proper_violated",
    "Verif.Coloring.maximum_proper_violated"
   ],
   "note": "Every symmetric graph and every order in which the loops visit the rows. Proper only when adjacent rows have different weights: with a tie both functions give adjacent rows the same colour (proved on a witness). Completeness, use of every colour, termination, independence of the visiting order and, for maximum_independent_sets, maximality and the degree bound hold for all weights."
  },
  {
   "property": "C45",
   "status": "partial",
   "theorems": [
    "Verif.MaxFlow.maxflow_feasible_partial",
    "Verif.MaxFlow.maxflow_maximal_partial",
    "Verif.MaxFlow.maxflow_deterministic",
    "Verif.MaxFlow.maxflow_maximal_violated",
    "Verif.MaxFlow.maxflow_feasible_violated",
    "Verif.MaxFlow.maxflow_reverse_edge_violated",
    "Verif.MaxFlow.maxflow_duplicate_violated",
    "Verif.MaxFlow.maxflow_same_vertex_violated"
   ],
   "note": "Every matrix without repeated pairs that stores both directions of every edge, with distinct source and sink. Rows processed one after the other: feasible and maximal. Rows interleaved: ends, no out-of-bounds access, feasible, provided lines 34-35 load potentialFlows[vi] once. Maximality under interleaving, feasibility with two loads, missing opposite edges, repeated pairs and equal source and sink fail (proved on witnesses)."
  },
  {
   "property": "C53",
   "status": "partial",
   "theorems": [
    "Verif.Memory.stack_blocks_partial",
    "Verif.Memory.stack_first_fit",
    "Verif.Memory.stack_free",
    "Verif.Memory.stack_failed_violated",
    "Verif.Memory.stack_wrap_violated",
    "Verif.Memory.stack_empty_violated"
   ],
   "note": "Every buffer, power of two or other non-zero alignment and LIFO history whose sizes do not overflow the address space: blocks are aligned, inside the buffer and disjoint from live ones. A failed allocation leaves the head beyond the tail, so that later requests fail (violated); sizes near 2^64 wrap around and succeed (violated); an empty block cannot be returned (violated)."
  },
  {
   "property": "C54",
   "status": "partial",
   "theorems": [
    "Verif.Memory.handle_offsets_partial",
    "Verif.Memory.handle_upstream_partial",
    "Verif.Memory.handle_moves_violated",
    "Verif.Memory.handle_alignment_violated",
    "Verif.Memory.handle_upstream_violated",
    "Verif.Memory.handle_unused_violated"
   ],
   "note": "Offsets of blocks obtained under LIFO use lie inside the current buffer and are disjoint, and upstream allocations are balanced, when one alignment is used throughout. Blocks do not stay valid: growing frees the buffer without copying (violated). With different alignments a block may be misaligned after growth, and the buffer is returned with the wrong alignment (violated); destroying an unused resource reads an uninitialised member (violated)."
  },
  {
   "property": "C55",
   "status": "partial",
   "theorems": [
    "Verif.Memory.arena_tracks_partial",
    "Verif.Memory.arena_check_partial",
    "Verif.Memory.arena_commit",
    "Verif.Memory.arena_safe",
    "Verif.Memory.arena_check_safe_partial",
    "Verif.Memory.arena_check_beyond_violated",
    "Verif.Memory.arena_check_wrap_violated",
    "Verif.Memory.arena_evict_wrap_violated",
    "Verif.Memory.stackvm_tracks",
    "Verif.Memory.stackvm_check_partial",
    "Verif.Memory.stackvm_commit",
    "Verif.Memory.stackvm_evict_violated",
    "Verif.Memory.stackvm_check_beyond_violated",
    "Verif.Memory.stackvm_check_wrap_violated"
   ],
   "note": "Every history of commits and evictions with failing system calls: masks agree with the pages, and for ranges inside the reserved space check_residency tells whether all their pages (arena) or all pages below their end (stack resource) are accessible. Ranges that reach beyond it or wrap around are reported resident (violated), and eviction in the stack resource removes every page above the offset, also outside the range (violated)."
  },
  {
   "property": "C57",
   "status": "partial",
   "theorems": [
    "Verif.Resource.resource_deallocate_partial",
    "Verif.Resource.resource_alone",
    "Verif.Resource.resource_sequential_partial",
    "Verif.Resource.resource_double_free_violated",
    "Verif.Resource.resource_dangling_violated"
   ],
   "note": "Calls with different pointers under every interleaving, and calls with any pointers one after the other, release every recorded block exactly once with its record, and report an error otherwise. Two concurrent calls with the same pointer release it twice or read an erased record (violated)."
  },
  {
   "property": "C38",
   "status": "partial",
   "theorems": [
    "Verif.HashTable.hash_insert_phase",
    "Verif.HashTable.hash_insert_finishes",
    "Verif.HashTable.hash_query_partial",
    "Verif.HashTable.hash_reset",
    "Verif.HashTable.hash_table_size",
    "Verif.HashTable.start_no_overflow",
    "Verif.HashTable.hash_query_oob",
    "Verif.HashTable.hash_query_violated",
    "Verif.HashTable.hash_sentinel_violated",
    "Verif.HashTable.hash_full_violated",
    "Verif.HashTable.hash_query_full_violated",
    "Verif.HashTable.hash_unreset_violated"
   ],
   "note": "Every hash function, table content, set of keys and interleaving of host insertions: indices are dense, every key is inserted once, no access outside the table, no deadlock. query is correct unless its probe sequence passes slot n-127: it then reads behind the table (violated, table of 128 slots). The key with all components maximal gets several indices (violated); with no free slot neither insert nor the query of an absent key returns (violated); a table that was not reset may block forever (violated)."
  },
  {
   "property": "C62",
   "status": "partial",
   "theorems": [
    "Verif.HashTable.hash_resize",
    "Verif.HashTable.hash_resize_finishes",
    "Verif.HashTable.hash_preserve_shrink_violated",
    "Verif.HashTable.hash_preserve_grow_violated"
   ],
   "note": "resize: every table content and interleaving. preserve is wrong: removal of colliding keys uses position -1 (violated), and growth reports entries that no key has (violated)."
  },
  {
   "property": "C39",
   "status": "partial",
   "theorems": [
    "Verif.Bcht.bcht_make",
    "Verif.Bcht.bcht_insert_new",
    "Verif.Bcht.bcht_query",
    "Verif.Bcht.bcht_entry",
    "Verif.Bcht.bcht_insert_partial",
    "Verif.Bcht.bcht_resize_partial",
    "Verif.Bcht.bcht_duplicate_violated",
    "Verif.Bcht.bcht_hashed_violated",
    "Verif.Bcht.bcht_failure_violated",
    "Verif.Bcht.bcht_overflow_violated",
    "Verif.Bcht.bcht_sentinel_violated",
    "Verif.Bcht.bcht_resize_violated"
   ],
   "note": "Sequential host view, every bucket size, hash triple and eviction choice, different keys: when no insertion fails every key is found with its index, and a failing insertion makes exactly one key disappear. Inserting a key again after it was moved gives it a second index (violated); with KeyCompare=false moved keys are lost although all insertions succeed (violated, default hash functions); a failed insertion loses an older key and later ones write out of bounds (violated); resize ignores failures (violated). Parallel insertion is not covered."
  },
  {
   "property": "C49",
   "status": "partial",
   "theorems": [
    "Verif.Sparse.locate_binary_partial",
    "Verif.Sparse.exist_partial",
    "Verif.Sparse.search_exact",
    "Verif.Sparse.locate_binary_safe_iff",
    "Verif.Sparse.locate_linear",
    "Verif.Sparse.get_spec",
    "Verif.Sparse.locate_first_line_violated",
    "Verif.Sparse.locate_witness_violated"
   ],
   "note": "Every line with ascending subscripts that does not start at offset 0, or starts there with a subscript not above the one searched: exact, within the line. All other searches in a line at offset 0 (empty, or only larger subscripts) read offset 2^31-1 (violated, for every such matrix); locate_binary_safe_iff says exactly which searches are safe. The linear search and operator() are correct for every line. The searches of SpmatViewLite in py_interop are the same text."
  },
  {
   "property": "C48",
   "status": "partial",
   "theorems": [
    "Verif.Spmv.spmv_classic_exact",
    "Verif.Spmv.spmv_row_major_exact",
    "Verif.Spmv.spmv_col_major_partial",
    "Verif.Spmv.spmv_mask_exact",
    "Verif.Spmv.spmv_total",
    "Verif.Spmv.laws_int",
    "Verif.Spmv.laws_rat",
    "Verif.Spmv.laws_plusTimesInt",
    "Verif.Spmv.laws_plusTimes",
    "Verif.Spmv.laws_boolean",
    "Verif.Spmv.laws_block",
    "Verif.Spmv.laws_minPlus",
    "Verif.Spmv.spmv_plus_times_partial",
    "Verif.Spmv.spmv_col_major_tall_violated",
    "Verif.Spmv.spmv_col_major_wide_violated",
    "Verif.Spmv.spmv_plus_times_violated"
   ],
   "note": "Every matrix, vector, schedule and choice of operations with the stated laws (numbers, 3x3 blocks, boolean, min-plus; floating-point rounding not modelled). spmv_classic adds the product to the output. spmv on column-major matrices launches one task per row instead of per column: columns are left out if there are more of them (violated) and every call reads out of bounds if there are fewer (violated). spmv with the default semiring truncates every product to int (violated)."
  },
  {
   "property": "C46",
   "status": "partial",
   "theorems": [
    "Verif.Sparse.build_partial",
    "Verif.Sparse.build_get_partial",
    "Verif.Sparse.build_deterministic_partial",
    "Verif.Sparse.build_int_partial",
    "Verif.Sparse.build_small",
    "Verif.Sparse.build_total",
    "Verif.Sparse.get_exact",
    "Verif.Sparse.intAdder_commutes",
    "Verif.Sparse.blockAdder_commutes",
    "Verif.Sparse.blockAdder_add",
    "Verif.Sparse.build_topo_partial",
    "Verif.Sparse.build_topo_small",
    "Verif.Sparse.fast_build_exact",
    "Verif.Sparse.fast_build_total",
    "Verif.Sparse.build_refused_violated",
    "Verif.Sparse.build_collision_violated"
   ],
   "note": "Every triplet list, storage order, schedule and hash function, for values whose component additions commute (integers and blocks of integers are instances; floating-point rounding is not modelled): the matrix is well formed and holds the sums. Also the topology build (with mirrored entries) and fastBuild for entries given once. Partial: keys differ from the sentinel of the hash table, and the hash table must not refuse an insertion: then the kernel takes the failure token for an index and writes out of bounds before the retry loop looks (violated, concrete witness with 16 colliding keys)."
  },
  {
   "property": "C47",
   "status": "partial",
   "theorems": [
    "Verif.Sparse.transpose_partial",
    "Verif.Sparse.transpose_get_partial",
    "Verif.Sparse.transpose_topo_partial",
    "Verif.Sparse.transpose_total",
    "Verif.Sparse.order_exact",
    "Verif.Sparse.order_topo",
    "Verif.Sparse.order_total",
    "Verif.Sparse.transpose_other_order",
    "Verif.Sparse.transpose_dims_violated",
    "Verif.Sparse.transpose_default_violated",
    "Verif.Sparse.transpose_self_violated",
    "Verif.Sparse.transpose_self_bounds_violated",
    "Verif.Sparse.transpose_self_dims_violated"
   ],
   "note": "Every well-formed matrix of the same storage order, every interleaving of the kernels, both with and without ordering of the lines: the result is the transposed matrix, well formed, with ascending subscripts if ordered (localOrdering proved on the radix-sort model). Partial because the code does not have the property: the number of rows and columns is never exchanged (violated, so the theorem assumes the target already has them), and in place, which is what transpose(policy) and py_interop do, the entries are read from freshly allocated arrays (violated: any value may result, or an access out of bounds). Device policies are not modelled; subscripts of at most 2^31."
  },
  {
   "property": "C50",
   "status": "proved",
   "theorems": [
    "Verif.Bvh.iter_neighbors_exact",
    "Verif.Bvh.iter_neighbors_all",
    "Verif.Bvh.iter_treelet_exact",
    "Verif.Bvh.find_nearest_exact",
    "Verif.Bvh.find_nearest_point_exact",
    "Verif.Bvh.ray_intersect_exact",
    "Verif.Bvh.overlaps_meet",
    "Verif.Bvh.refit_then_query"
   ],
   "note": "Every binary tree laid out as the queries expect (Layout), every choice of boxes in which parents contain their children, every query and callback, including callbacks that stop the query; also at most two primitives, where there is no tree. Coordinates are elements of any linear order (NaN excluded). find_nearest, find_nearest_point and ray_intersect for distances and hit tests that are monotone under containment (their rounding is not modelled). Queries with fronts are not modelled. The queries of BvhViewLite in py_interop are the same text."
  },
  {
   "property": "C51",
   "status": "proved",
   "theorems": [
    "Verif.Bvh.refit_exact",
    "Verif.Bvh.refit_ends",
    "Verif.Bvh.refit_throws",
    "Verif.Bvh.refit_race_free",
    "Verif.Bvh.refit_writes_once",
    "Verif.Bvh.refit_ready",
    "Verif.Bvh.refit_then_query",
    "Verif.Bvh.box_union",
    "Verif.Bvh.mergeBox_contains"
   ],
   "note": "Every tree, number of tasks and interleaving of their steps under sequential consistency: no access out of bounds, every box written once and never while another task accesses it, the boxes at the end are those merged along the tree, the smallest boxes if no primitive's box is inverted. The host atomic_cas uses relaxed order on failure; the weak memory model is not covered."
  },
  {
   "property": "C63",
   "status": "partial",
   "theorems": [
    "Verif.Bvh.self_iter_all",
    "Verif.Bvh.self_iter_pairs_partial",
    "Verif.Bvh.self_iter_exact",
    "Verif.Bvh.self_iter_few",
    "Verif.Bvh.self_iter_itself_violated"
   ],
   "note": "Every hierarchy ready for queries: each pair of different overlapping primitives is reported exactly once, by one of the two leaves. But with more than two primitives every leaf also reports itself (violated), with at most two none does."
  },
  {
   "property": "C58",
   "status": "proved",
   "theorems": [
    "Verif.Bvh.build_topology",
    "Verif.Bvh.build_topology_ends",
    "Verif.Bvh.build_topology_deterministic",
    "Verif.Bvh.sort_spec",
    "Verif.Bvh.build_ready",
    "Verif.Bvh.build_then_query",
    "Verif.Bvh.build_ends",
    "Verif.Bvh.build_empty_violated"
   ],
   "note": "Every number of primitives, all codes, every interleaving of the writes of each kernel. The Morton codes are arbitrary (their computation is not modelled) and subscripts do not overflow (fewer than 2^29 primitives). build_empty_violated, outside the statement: build on no primitives keeps the old hierarchy, and queries still report the old primitives."
  },
  {
   "property": "C64",
   "status": "partial",
   "theorems": [
    "Verif.Bvh.build_refit_violated",
    "Verif.Bvh.build_refit_three_violated",
    "Verif.Bvh.build_refit_three_partial"
   ],
   "note": "Violated: inner nodes are numbered by split position, but _build_reorder_trunk_with_bv takes node 0 for the root; with three primitives the access is out of bounds for all codes whose first two are the nearest, and the hierarchy is right for all others (boxes as trees of merges). Sequential policy only; other numbers of primitives are not covered."
  },
  {
   "property": "C52",
   "status": "partial",
   "theorems": [
    "Verif.SpatialHash.spatial_hash_cells",
    "Verif.SpatialHash.spatial_hash_loop",
    "Verif.SpatialHash.spatial_hash_reports",
    "Verif.SpatialHash.spatial_hash_point",
    "Verif.SpatialHash.spatial_hash_finds_partial",
    "Verif.SpatialHash.spatial_hash_point_partial",
    "Verif.SpatialHash.spatial_hash_near",
    "Verif.SpatialHash.spatial_hash_safe_partial",
    "Verif.SpatialHash.spatial_hash_touching_violated",
    "Verif.SpatialHash.spatial_hash_point_violated",
    "Verif.SpatialHash.spatial_hash_flat_violated",
    "Verif.SpatialHash.spatial_hash_flat_second",
    "Verif.SpatialHash.spatial_hash_once_violated",
    "Verif.SpatialHash.spatial_hash_empty_violated"
   ],
   "note": "Violated: cells are half open, so boxes that only touch in a plane between two cells, points on the upper end of a box in such a plane, and primitives flat in the first dimension in such a plane are missed; a build without primitives keeps the old ones. Proved otherwise, for every interleaving and every number of retries; absence of out-of-bounds accesses for up to eight different cells per primitive."
  },
  {
   "property": "C65",
   "status": "proved",
   "theorems": [
    "Verif.Grid.coordToKey_spec",
    "Verif.Grid.tileOffset_spec",
    "Verif.Grid.hierOffset_spec",
    "Verif.Grid.sbit_spec",
    "Verif.Grid.iCoord_of_coord",
    "Verif.Grid.coord_of_iCoord",
    "Verif.Grid.same_cell",
    "Verif.Grid.child_key",
    "Verif.Grid.child_offset",
    "Verif.Grid.parent_key",
    "Verif.Grid.key_ne_marker",
    "Verif.Grid.valid_vdb",
    "Verif.Grid.valid_octree",
    "Verif.Grid.decompose_spec",
    "Verif.Grid.sparse_iCoord",
    "Verif.Grid.sparse_of_iCoord",
    "Verif.Grid.global_offset_violated"
   ],
   "note": "Every layout whose blocks have sides below 2^31 and whose tiles have fewer than 2^32 cells, every dimension. Beyond the statement: global_coord_to_local_offset of sparse grids does not mask the first component (violated; its assertion rejects every use)."
  },
  {
   "property": "C66",
   "status": "proved",
   "theorems": [
    "Verif.Grid.accessor_transparent",
    "Verif.Grid.accessor_hit"
   ],
   "note": "Every grid content, even inconsistent ones, one number per channel; single-threaded use of an accessor on an unchanged grid."
  },
  {
   "property": "C67",
   "status": "partial",
   "theorems": [
    "Verif.Grid.reorder_exact",
    "Verif.Grid.reorder_values",
    "Verif.Grid.reorder_again",
    "Verif.Grid.reorder_throws",
    "Verif.Grid.reorder_twice_violated",
    "Verif.Grid.mixed_consistent"
   ],
   "note": "Proved for every consistent grid with one mask per block. Violated: repeating; Vector::reorder leaves as many masks as the capacity, so with spare capacity (which resizeTopo creates) the next reorder throws (reorder_twice_violated)."
  },
  {
   "property": "C68",
   "status": "partial",
   "theorems": [
    "Verif.Grid.complement_up",
    "Verif.Grid.complement_run",
    "Verif.Grid.complement_completes",
    "Verif.Grid.complement_few",
    "Verif.Grid.complement_same",
    "Verif.Grid.complement_hides_violated",
    "Verif.Grid.gap_ready",
    "Verif.Grid.full_consistent"
   ],
   "note": "Proved for grids with one mask per finest block, if no insertion is refused (the code does not check; proved never to happen below 16 blocks); without this condition only that inserting is defined. Violated: a new block between an active tile and a finer block hides the tile, whose coordinates become inactive and zero (complement_hides_violated)."
  },
  {
   "property": "C69",
   "status": "partial",
   "theorems": [
    "Verif.Grid.restructure_runs",
    "Verif.Grid.restructure_moves",
    "Verif.Grid.restructure_few",
    "Verif.Grid.restructure_valueOr",
    "Verif.Grid.same_layout",
    "Verif.Grid.restructure_hides_violated",
    "Verif.Grid.restructure_drops_violated",
    "Verif.Grid.corner_source"
   ],
   "note": "Proved for consistent, ordered sources if each source cell fits into one target block (Holds) and target blocks below a cell are no larger than the source blocks below it (Spares; holds for equal layouts), and if no insertion is refused (proved for up to 12 active cells). Violated otherwise: active cells are hidden by completed parents (restructure_hides_violated) or only partly transferred (restructure_drops_violated)."
  },
  {
   "property": "C70",
   "status": "proved",
   "theorems": [
    "Verif.Kernel.linear_spline",
    "Verif.Kernel.quadratic_spline",
    "Verif.Kernel.cubic_spline",
    "Verif.Kernel.linear_interpolates",
    "Verif.Kernel.quadratic_interpolates",
    "Verif.Kernel.cubic_interpolates",
    "Verif.Kernel.quadratic_curve",
    "Verif.Kernel.cubic_curve",
    "Verif.Kernel.linear_taylor",
    "Verif.Kernel.quadratic_taylor",
    "Verif.Kernel.cubic_taylor",
    "Verif.Kernel.weights_defined",
    "Verif.Kernel.bsplineWeight_spec",
    "Verif.Kernel.delta2_linear",
    "Verif.Kernel.delta3_values",
    "Verif.Kernel.delta3_conditions",
    "Verif.Kernel.delta4_values",
    "Verif.Kernel.delta4_conditions",
    "Verif.Kernel.real_sqrt"
   ],
   "note": "The property is about exact arithmetic: numbers are the elements of any ordered field with a floor (the examples use rationals and reals); rounding is not modelled. The delta kernels are proved for any function that is a square root on non-negative numbers."
  },
  {
   "property": "C71",
   "status": "proved",
   "theorems": [
    "Verif.SparseGrid.look_unique",
    "Verif.SparseGrid.valueOr_block",
    "Verif.SparseGrid.valueOr_empty",
    "Verif.SparseGrid.cell_injective",
    "Verif.SparseGrid.valueOrFace_spec",
    "Verif.SparseGrid.accessor_answers",
    "Verif.SparseGrid.accessor_valueOr",
    "Verif.SparseGrid.twoBlocks_ok",
    "Verif.SparseGrid.accessor_side_one_violated",
    "Verif.SparseGrid.hole_side_one_violated"
   ],
   "note": "Side length 1, which the class allows, is outside the property: accessor_side_one_violated and hole_side_one_violated show that there a fresh accessor and the hole mark are taken for blocks. Scalar look-ups only (not whole-vector channels); the increment of a coordinate wraps in the model."
  },
  {
   "property": "C72",
   "status": "partial",
   "theorems": [
    "Verif.Sample.sample_accessor",
    "Verif.Sample.represents_exists",
    "Verif.Sample.represents_value",
    "Verif.Sample.sample_spline",
    "Verif.Sample.sample_affine",
    "Verif.Sample.sample_bounds",
    "Verif.Sample.interp_linear",
    "Verif.Sample.interp_node",
    "Verif.Sample.sample_node",
    "Verif.Sample.interp_half",
    "Verif.Sample.pack_spec",
    "Verif.Sample.staggered_spline",
    "Verif.Sample.staggered_affine",
    "Verif.Sample.staggeredCell_spec",
    "Verif.Sample.staggeredCellFace_spec",
    "Verif.Sample.gradient_spline",
    "Verif.Sample.gradient_affine",
    "Verif.Sample.minimum_spec",
    "Verif.Sample.maximum_spec",
    "Verif.Sample.adaptive_accessor",
    "Verif.Sample.adaptive_spline",
    "Verif.Sample.adaptive_affine",
    "Verif.Sample.slopeGrid_ok",
    "Verif.Sample.minimum_accessor_violated"
   ],
   "note": "minimum and maximum through an accessor count the background as a stored value (minimum_accessor_violated); they are proved without accessor for sparse grids. Numbers are an ordered field with floor; positions must be in range of 32-bit coordinates. Not covered: transforms between world and index space, staggered samples of adaptive grids, finite-difference gradients."
  },
  {
   "property": "C73",
   "status": "partial",
   "theorems": [
    "Verif.Owner.owner_optional_partial",
    "Verif.Owner.owner_destroys",
    "Verif.Owner.moved_stays",
    "Verif.Owner.copy_construct_violated",
    "Verif.Owner.copy_assign_violated",
    "Verif.Owner.assign_throws_violated",
    "Verif.Owner.assign_self_violated"
   ],
   "note": "Every sequence of the operations that work. Violated: the copy constructor and copy assignment of owners are templates, so the implicit ones are used, which copy bytes (wrong for types that are not trivially copyable); for types without assignment, assigning over a value that throws, or from the own value, leaves or uses a destroyed object. InplaceStorage only (DynamicStorage does not compile)."
  },
  {
   "property": "C74",
   "status": "partial",
   "theorems": [
    "Verif.Cx.toC_injective",
    "Verif.Cx.addR_spec",
    "Verif.Cx.subR_spec",
    "Verif.Cx.mulR_spec",
    "Verif.Cx.divR_spec",
    "Verif.Cx.add_spec",
    "Verif.Cx.sub_spec",
    "Verif.Cx.neg_spec",
    "Verif.Cx.div_spec",
    "Verif.Cx.rDiv_spec",
    "Verif.Cx.self_spec",
    "Verif.Cx.eq_spec",
    "Verif.Cx.eqR_spec",
    "Verif.Cx.norm_spec",
    "Verif.Cx.conj_spec",
    "Verif.Cx.mul_iff",
    "Verif.Cx.mulSelf_iff",
    "Verif.Cx.mul_re_partial",
    "Verif.Cx.mul_violated",
    "Verif.Cx.mul_comm_violated",
    "Verif.Cx.abs_spec",
    "Verif.Cx.arg_spec",
    "Verif.Cx.polar_spec",
    "Verif.Cx.exp_spec",
    "Verif.Cx.log_spec",
    "Verif.Cx.log10_spec",
    "Verif.Cx.cos_spec",
    "Verif.Cx.sin_spec",
    "Verif.Cx.cosh_spec",
    "Verif.Cx.sinh_spec",
    "Verif.Cx.tan_spec",
    "Verif.Cx.tanh_spec",
    "Verif.Cx.sqrt_spec",
    "Verif.Cx.powR_spec",
    "Verif.Cx.pow_partial",
    "Verif.Cx.pow_violated",
    "Verif.Cx.asinh_spec",
    "Verif.Cx.acosh_spec",
    "Verif.Cx.atan_spec",
    "Verif.Cx.atanh_spec",
    "Verif.Cx.quadRoot_linear",
    "Verif.Cx.quadRoot_partial",
    "Verif.Cx.quadRoot_none",
    "Verif.Cx.quadRoot_order_violated",
    "Verif.Cx.quadRoot_double_violated",
    "Verif.Cx.cubicRoot_violated"
   ],
   "note": "Exact arithmetic. Violated: the product of two complex numbers uses the new real part for the imaginary part (mul_iff says when it is right), hence the complex power is wrong ((-1)^1 = 1) and the cubic solver returns numbers that are no roots (7/6 for x^3 - x); the quadratic solver returns the larger root if the leading coefficient is negative, and no root if the discriminant is 0. asin, acos, integer powers and the setters do not compile and are not modelled; the inverse functions are shown to be right inverses, sqrt to be the principal root."
  },
  {
   "property": "C75",
   "status": "partial",
   "theorems": [
    "Verif.Mat.offset_bijective",
    "Verif.Mat.offset_two",
    "Verif.Mat.constant_spec",
    "Verif.Mat.add_spec",
    "Verif.Mat.sub_spec",
    "Verif.Mat.smul_spec",
    "Verif.Mat.neg_spec",
    "Verif.Mat.sum_spec",
    "Verif.Mat.prod_spec",
    "Verif.Mat.dot_spec",
    "Verif.Mat.l2NormSqr_spec",
    "Verif.Mat.cross3_spec",
    "Verif.Mat.cross2_spec",
    "Verif.Mat.identity_spec",
    "Verif.Mat.transpose_spec",
    "Verif.Mat.matMul_spec",
    "Verif.Mat.matVec_spec",
    "Verif.Mat.vecMat_spec",
    "Verif.Mat.crossMatrix_spec",
    "Verif.Mat.trace_spec",
    "Verif.Mat.dyadic_spec",
    "Verif.Mat.diagMulR_spec",
    "Verif.Mat.diagMulL_spec",
    "Verif.Mat.row_spec",
    "Verif.Mat.col_spec",
    "Verif.Mat.flattenCol_spec",
    "Verif.Mat.flattenRow_spec",
    "Verif.Mat.affine_spec",
    "Verif.Mat.affineT_spec",
    "Verif.Mat.determinant_spec",
    "Verif.Mat.matDiagMatT_spec",
    "Verif.Mat.matTVec_spec",
    "Verif.Mat.matrixDet_spec",
    "Verif.Mat.matrixTranspose_spec",
    "Verif.Mat.matrixTrace_spec",
    "Verif.Mat.matrixMul_spec",
    "Verif.Mat.matrixDiag_spec",
    "Verif.Mat.matrixTMul_spec",
    "Verif.Mat.matrixMulT_spec",
    "Verif.Mat.matrixVec_spec",
    "Verif.Mat.vectorMat_spec",
    "Verif.Mat.matrixCofactor_spec",
    "Verif.Mat.matrixCofactor3_violated",
    "Verif.Mat.crossMul3_violated",
    "Verif.Mat.sdiv_spec",
    "Verif.Mat.deviatoric_spec",
    "Verif.Mat.matrixDeviatoric3_spec",
    "Verif.Mat.inverse1_spec",
    "Verif.Mat.inverse2_spec",
    "Verif.Mat.inverse3_spec",
    "Verif.Mat.adjugate4_spec",
    "Verif.Mat.inverse4_spec",
    "Verif.Mat.max_spec",
    "Verif.Mat.min_spec",
    "Verif.Mat.abs_spec",
    "Verif.Mat.infNorm_spec",
    "Verif.Mat.infNormSqr_spec",
    "Verif.Mat.orthogonal3_spec",
    "Verif.Mat.parallel_partial",
    "Verif.Mat.parallel_violated",
    "Verif.Mat.length_spec",
    "Verif.Mat.normalized_spec",
    "Verif.Mat.orthogonal2_spec",
    "Verif.Mat.unpackCoord_spec",
    "Verif.Mat.linearToCoord_spec"
   ],
   "note": "Exact arithmetic. Violated: matrixCofactor3d writes the adjugate, not the matrix of cofactors (as matrixCofactor2d does); vec_crossMul_vec_3D adds where the cross product subtracts; parallel looks at the first component of the cross product only and reports two axes as parallel. In-place use of the column-major functions (output equal to an input) is not modelled."
  },
  {
   "property": "C76",
   "status": "partial",
   "theorems": [
    "Verif.Rot.conv_spec",
    "Verif.Rot.unconv_spec",
    "Verif.Rot.rotation_spec",
    "Verif.Rot.fill_orthogonal",
    "Verif.Rot.mul_spec",
    "Verif.Rot.zeroChasing_spec",
    "Verif.Rot.upperBidiagonalize_spec",
    "Verif.Rot.makeLambdaShape_spec",
    "Verif.Rot.qr_spec",
    "Verif.Rot.qrSvd2_spec",
    "Verif.Rot.polarDecomposition2_spec",
    "Verif.Rot.qrSvd3_partial",
    "Verif.Rot.polarDecomposition3_partial",
    "Verif.Rot.gramSchmidt_spec"
   ],
   "note": "Exact real arithmetic. For 3 by 3 matrices the theorems are about the result if the loop of qr_svd ends; that it ends is not proved. One by one matrices are not modelled."
  },
  {
   "property": "C77",
   "status": "partial",
   "theorems": [
    "Verif.Eig.sym_of_symmetric",
    "Verif.Eig.eigenN_ends",
    "Verif.Eig.eigenN_partial",
    "Verif.Eig.eigenN_fresh",
    "Verif.Eig.eigenN_zero_violated",
    "Verif.Eig.eigenN_one_violated",
    "Verif.Eig.eigenN_witness",
    "Verif.Eig.eigenN_violated",
    "Verif.Eig.eigen2_spec",
    "Verif.Eig.eigen3_values",
    "Verif.Eig.eigen3_vectors",
    "Verif.Eig.eigen3_exact",
    "Verif.Eig.makePd_psd",
    "Verif.Eig.makePd_nearest",
    "Verif.Eig.makePd_keeps",
    "Verif.Eig.makePd_two",
    "Verif.Eig.makePd_three"
   ],
   "note": "Exact real arithmetic. Two by two: proved in full. Three by three: values proved in full, eigenvectors with an error proportional to the epsilon of the number type (the code accepts an approximation if two values are near). Other sizes: the code violates the property. The index of the largest entry is searched again for rows k and l only, so the loop can stop at a matrix that is not diagonal (eigenN_violated: a 4 by 4 matrix for which a value returned is not an eigenvalue); a zero matrix gives 0/0, one by one matrices are read out of range. What holds for the code is eigenN_ends and eigenN_partial; eigenN_fresh shows that a search over all rows repairs it. make_pd is proved for every exact decomposition."
  },
  {
   "property": "C78",
   "status": "partial",
   "theorems": [
    "Verif.Elastic.lame_roundtrip",
    "Verif.Elastic.eos_gamma_violated",
    "Verif.Elastic.eos_derivatives",
    "Verif.Elastic.neoHookean_dpsi",
    "Verif.Elastic.neoHookean_d2psi",
    "Verif.Elastic.fixedCorotated_dpsi",
    "Verif.Elastic.fixedCorotated_d2psi_partial",
    "Verif.Elastic.fixedCorotated_d2psi_violated",
    "Verif.Elastic.stvk_dpsi",
    "Verif.Elastic.stvk_d2psi",
    "Verif.Elastic.neoHookean_twist",
    "Verif.Elastic.fixedCorotated_twist",
    "Verif.Elastic.stvk_twist2",
    "Verif.Elastic.stvk_twist3",
    "Verif.Elastic.neoHookean_gradient",
    "Verif.Elastic.neoHookean_piola_deriv",
    "Verif.Elastic.neoHookean_tangent3",
    "Verif.Elastic.neoHookean_tangent2",
    "Verif.Elastic.fixedCorotated_gradient_aux",
    "Verif.Elastic.fixedCorotated_gradient3",
    "Verif.Elastic.fixedCorotated_gradient2",
    "Verif.Elastic.tangent_psd3",
    "Verif.Elastic.tangent_psd2",
    "Verif.Elastic.i2_derivatives",
    "Verif.Elastic.i3_derivatives",
    "Verif.Elastic.i3_columns_violated",
    "Verif.Elastic.stableNeoHookean_derivatives",
    "Verif.Elastic.neoHookeanInvariant_derivatives",
    "Verif.Elastic.neoHookean_forms",
    "Verif.Elastic.neoHookean_code2",
    "Verif.Elastic.fixedCorotated_code2",
    "Verif.Elastic.code2_sum_pos",
    "Verif.Elastic.stableSpd_psd",
    "Verif.Elastic.stableSpd_exact",
    "Verif.Elastic.stretching_violated",
    "Verif.Elastic.arap_gradient_partial",
    "Verif.Elastic.arap_gradient_violated"
   ],
   "note": "Exact real arithmetic. Proved: Lame parameters, equation of state, Neo-Hookean (singular values and invariants) and stable Neo-Hookean in full; fixed corotated gradient; Hencky model at the level of singular values; every projected tangent positive semidefinite. Violated by the code: AnisotropicArap returns half of the gradient (arap_gradient_violated), the second derivative of the fixed corotated model in one dimension is the constant 1 (fixedCorotated_d2psi_violated), EquationOfState ignores gamma (eos_gamma_violated), the third invariant reads a column out of range in two dimensions (i3_columns_violated), the stretching matrix divides by zero for singular matrices (stretching_violated). Not proved: tangent of the fixed corotated model and gradient of the Hencky model as functions of the matrix; the AnisotropicArap tangent is not modelled. The singular value decomposition is a parameter; in two dimensions the one of the code is put in (neoHookean_code2, fixedCorotated_code2)."
  },
  {
   "property": "C79",
   "status": "partial",
   "theorems": [
    "Verif.Dist.dist2_pp",
    "Verif.Dist.dist2_pe_unclassified_partial",
    "Verif.Dist.dist2_pe_degenerate_violated",
    "Verif.Dist.dist2_pe_1d_violated",
    "Verif.Dist.dist2_pe",
    "Verif.Dist.dist_pt_sqr_partial",
    "Verif.Dist.pt_category_and_dist2_partial",
    "Verif.Dist.pt_category_formula_partial",
    "Verif.Dist.dist2_pt_unclassified_partial",
    "Verif.Dist.pt_functions_agree",
    "Verif.Dist.dist2_pt",
    "Verif.Dist.pt_flat_violated",
    "Verif.Dist.dist_ee_sqr_partial",
    "Verif.Dist.dist_ee_sqr_small_partial",
    "Verif.Dist.dist_ee_sqr_short_violated",
    "Verif.Dist.dist_ee_sqr_point_violated",
    "Verif.Dist.ee_category_and_dist2_partial",
    "Verif.Dist.dist2_ee_unclassified_partial",
    "Verif.Dist.dist2_ee_crossing_violated",
    "Verif.Dist.dist2_ee",
    "Verif.Dist.et_intersected_partial",
    "Verif.Dist.et_intersected_coplanar_violated",
    "Verif.Dist.dist_grad_pe2",
    "Verif.Dist.dist_grad_pe3",
    "Verif.Dist.dist_grad_ee",
    "Verif.Dist.dist_grad_pt",
    "Verif.Dist.mollifier_grad_ee",
    "Verif.Dist.mollifier_range",
    "Verif.Dist.barrier_derivatives",
    "Verif.Dist.barrier_shape",
    "Verif.Dist.barrier_pos"
   ],
   "note": "Exact real arithmetic. Violated by the code: edges of length zero and triangles of area zero give zero divided by zero although the distance exists (dist2_pe_degenerate_violated, pt_flat_violated); in one dimension dist2_pe_unclassified returns the largest number for points on the edge (dist2_pe_1d_violated); dist_ee_sqr takes short edges for parallel because its tolerance is absolute (dist_ee_sqr_short_violated: with the float tolerance edges of length 1/20 that cross get 1/1600) and ignores the first edge if the second is a point (dist_ee_sqr_point_violated); dist2_ee_unclassified returns the distance of an end point for edges that cross (dist2_ee_crossing_violated); et_intersected is false for all edges in the plane of the triangle (et_intersected_coplanar_violated). The partial theorems exclude these cases and some around them: dist2_ee_unclassified_partial all nearly parallel edges, et_intersected_partial all edges parallel to the plane, the theorems on dist_ee_sqr and ee_category_and_dist2 determinants between zero and the tolerance, that on dist_ee_sqr also numerators between zero and the tolerance. Not modelled: Hessians, pFpx, the rounding to float in dist_ee_sqr."
  },
  {
   "property": "C80",
   "status": "partial",
   "theorems": [
    "Verif.Krylov.cg_solves",
    "Verif.Krylov.cg_exact",
    "Verif.Krylov.cg_optimal",
    "Verif.Krylov.cr_solves_partial",
    "Verif.Krylov.cr_optimal_partial",
    "Verif.Krylov.cr_fixed_violated",
    "Verif.Krylov.cr_tol_violated"
   ],
   "note": "Exact real arithmetic. Conjugate gradients: proved. Conjugate residuals: violated by the code. The first product A p is not projected, so with fixed values the solver changes them (cr_fixed_violated); solve overwrites the member tol by the tightened tolerance, so a second call with the same arguments gives another result (cr_tol_violated). The partial theorems on conjugate residuals require that A maps free vectors to free vectors, in particular they hold if nothing is fixed. Not modelled: MinimumResidual.hpp (calls functions that GivensRotation does not have), console output and getchar."
  },
  {
   "property": "C81",
   "status": "partial",
   "theorems": [
    "Verif.Rotation.axis_rotation",
    "Verif.Rotation.axis_turns",
    "Verif.Rotation.axis_add",
    "Verif.Rotation.axis_roundtrip_partial",
    "Verif.Rotation.axis_found",
    "Verif.Rotation.axis_near_violated",
    "Verif.Rotation.euler_product",
    "Verif.Rotation.euler_rotation",
    "Verif.Rotation.euler_roundtrip_partial",
    "Verif.Rotation.euler_found",
    "Verif.Rotation.euler_near_violated",
    "Verif.Rotation.quat_rotation",
    "Verif.Rotation.quat_product",
    "Verif.Rotation.quat_conjugate",
    "Verif.Rotation.quat_axis",
    "Verif.Rotation.between_three",
    "Verif.Rotation.between_two",
    "Verif.Rotation.angle_rotation",
    "Verif.Rotation.velocity_three",
    "Verif.Rotation.velocity_two"
   ],
   "note": "Exact real arithmetic. The extraction is violated for rotations closer than the constant of near_zero to a lock but not at it: axis_near_violated (small turns come back as the identity), euler_near_violated. The partial theorems cover the locks themselves and everything farther away; for half turns about an axis the exact square root is assumed, and that the first coordinate of the axis is zero if it is near zero. Away from the locks nothing is assumed of sqrtNewtonRaphson except that it is positive."
  },
  {
   "property": "C82",
   "status": "partial",
   "theorems": [
    "Verif.MathUtils.sqrt_ends",
    "Verif.MathUtils.sqrt_close",
    "Verif.MathUtils.sqrt_relative_partial",
    "Verif.MathUtils.sqrt_rest",
    "Verif.MathUtils.sqrt_large_violated",
    "Verif.MathUtils.sqrt_small_violated",
    "Verif.MathUtils.log_quotient",
    "Verif.MathUtils.log_difference",
    "Verif.MathUtils.log_interlock",
    "Verif.MathUtils.prefix_sums"
   ],
   "note": "Exact real arithmetic, unbounded integers. A small relative error of sqrtNewtonRaphson is violated for large arguments, because relTol is multiplied with the argument instead of the root (sqrt_large_violated: factor above two at 1e14 with the default for float), and for arguments below the constant, which give zero (sqrt_small_violated). Rounding, with which the iteration could also end differently, is not modelled."
  },
  {
   "property": "C83",
   "status": "partial",
   "theorems": [
    "Verif.MathUtils.quad_smallest_partial",
    "Verif.MathUtils.quad_negative_violated",
    "Verif.MathUtils.quad_double_violated",
    "Verif.MathUtils.quad_zero_violated",
    "Verif.MathUtils.quad_constant_violated",
    "Verif.MathUtils.cubic_roots",
    "Verif.MathUtils.cubic_result",
    "Verif.MathUtils.cubic_smallest_partial",
    "Verif.MathUtils.cubic_quadratic",
    "Verif.MathUtils.cubic_triple_violated",
    "Verif.MathUtils.cubic_nonreal_violated"
   ],
   "note": "Exact real and complex arithmetic; the complex square and cube root are any functions whose powers give back the argument. Violated by the code: a negative leading coefficient with two positive roots gives the larger one (quad_negative_violated), a double root gives -1 (quad_double_violated), a root zero hides the positive one (quad_zero_violated), a zero linear coefficient divides by zero (quad_constant_violated), a triple root gives -1 (cubic_triple_violated), nearly real pairs count as real roots (cubic_nonreal_violated). The partial theorems exclude these, and leading coefficients within the tolerance but not zero."
  },
  {
   "property": "C84",
   "status": "partial",
   "theorems": [
    "Verif.Plastic.snow_nearest",
    "Verif.Plastic.snow_hardening",
    "Verif.Plastic.capped_nearest",
    "Verif.Plastic.capped_inside",
    "Verif.Plastic.capped_rate",
    "Verif.Plastic.drucker_cone",
    "Verif.Plastic.drucker_volume",
    "Verif.Plastic.drucker_inside_partial",
    "Verif.Plastic.drucker_isotropic_violated",
    "Verif.Plastic.drucker_slope",
    "Verif.Plastic.vonMises_return",
    "Verif.Plastic.vonMises_again",
    "Verif.Plastic.clay_tip",
    "Verif.Plastic.clay_inside",
    "Verif.Plastic.clay_return",
    "Verif.Plastic.clay_hardening",
    "Verif.Plastic.clay_surface_violated"
   ],
   "note": "Exact real arithmetic; the Newton roots of constants are parameters. Violated by the code: Drucker-Prager resets a state compressed alike in all directions, which is in the cone, to rest (drucker_isotropic_violated), so the statement about states in the cone needs a deviator beyond the tolerance; the return of Cam-Clay uses the trial pressure, and the volume it adds can put the result outside the ellipse (clay_surface_violated). AssociativeVonMises and the decomposition into singular values around the projection are not modelled."
  },
  {
   "property": "C85",
   "status": "partial",
   "theorems": [
    "Verif.Friction.potential_deriv",
    "Verif.Friction.potential_gradient",
    "Verif.Friction.friction_bounds",
    "Verif.Friction.second_deriv_partial",
    "Verif.Friction.second_deriv_violated",
    "Verif.Friction.pp_basis",
    "Verif.Friction.pe_basis",
    "Verif.Friction.pt_basis",
    "Verif.Friction.ee_basis",
    "Verif.Friction.pe_closest",
    "Verif.Friction.pt_closest",
    "Verif.Friction.ee_closest",
    "Verif.Friction.pp_dual",
    "Verif.Friction.pe_dual",
    "Verif.Friction.pt_dual",
    "Verif.Friction.ee_dual"
   ],
   "note": "Exact real arithmetic. Violated by the code: above the threshold f2_SF_term is not the derivative of f1, although the comment says it is the same there (second_deriv_violated); below it is (second_deriv_partial)."
  },
  {
   "property": "C86",
   "status": "partial",
   "theorems": [
    "Verif.Transform.compose",
    "Verif.Transform.translation",
    "Verif.Transform.scale",
    "Verif.Transform.rotation",
    "Verif.Transform.decompose_column",
    "Verif.Transform.decompose_row",
    "Verif.Transform.decompose_two",
    "Verif.Transform.decompose_into"
   ],
   "note": "Exact real arithmetic. The polar decomposition is a parameter required to multiply back; it is instantiated in two dimensions (C76). In three dimensions the one of the code multiplies back up to a tolerance, which is not carried through here."
  },
  {
   "property": "C87",
   "status": "proved",
   "theorems": [
    "Verif.Dihedral.angle_turn",
    "Verif.Dihedral.angle_extremes",
    "Verif.Dihedral.angle_exchange",
    "Verif.Dihedral.angle_rigid",
    "Verif.Dihedral.gradient_deriv",
    "Verif.Dihedral.gradient_balance",
    "Verif.Dihedral.hessian_deriv",
    "Verif.Dihedral.hessian_symm"
   ],
   "note": "Exact real arithmetic; degenerate triangles are excluded. The comment in the code gives the open range (-pi, pi) and a parameter branch that does not exist; folded triangles have the angle pi (angle_extremes)."
  },
  {
   "property": "C88",
   "status": "partial",
   "theorems": [
    "Verif.Poisson.offset_inj",
    "Verif.Poisson.store",
    "Verif.Poisson.storage_iff",
    "Verif.Poisson.storage_violated",
    "Verif.Poisson.around_ring",
    "Verif.Poisson.bring_inside",
    "Verif.Poisson.sample_violated",
    "Verif.Poisson.sample_storage_violated",
    "Verif.Poisson.message_violated",
    "Verif.Poisson.first_in_box",
    "Verif.Poisson.sample_partial",
    "Verif.Poisson.sample_exhausted",
    "Verif.Poisson.check_exact",
    "Verif.Poisson.box_violated",
    "Verif.Poisson.periodic_narrow_violated",
    "Verif.Poisson.periodic_seam_violated"
   ],
   "note": "The code allocates the product of the weights instead of the product of the dimensions: in the plane one row (storage_violated), so that every call of sample is undefined (sample_violated, sample_storage_violated); the message of lines 243-244 reads a cell that need not exist (message_violated). The positive theorems are for an allocation of one cell per index without that message. Samples can lie outside the box, up to one cell (box_violated). Periodic mode reads outside the grid if there are two rows (periodic_narrow_violated) and misses close pairs unless the box is a whole number of cells wide (periodic_seam_violated). Exact real arithmetic; sampling in space from a file is not modelled."
  },
  {
   "property": "C89",
   "status": "partial",
   "theorems": [
    "Verif.Mpm.arena",
    "Verif.Mpm.p2g_mass",
    "Verif.Mpm.p2g_momentum",
    "Verif.Mpm.p2g_angular",
    "Verif.Mpm.p2g_force",
    "Verif.Mpm.p2g_torque",
    "Verif.Mpm.stress_power",
    "Verif.Mpm.p2g_order",
    "Verif.Mpm.p2g_outside",
    "Verif.Mpm.eos_symmetric",
    "Verif.Mpm.corotated_symmetric",
    "Verif.Mpm.corotated_principal",
    "Verif.Mpm.momenta_exact",
    "Verif.Mpm.maxVelocity_spec",
    "Verif.Mpm.g2p_affine",
    "Verif.Mpm.g2p_update",
    "Verif.Mpm.step_momentum",
    "Verif.Mpm.step_angular",
    "Verif.Mpm.step_energy",
    "Verif.Mpm.step_stress"
   ],
   "note": "Exact real arithmetic; three dimensions. The blocks of the grid and the hash table are not repeated here: a node is addressed by its coordinate. The decomposition is an argument of the corotated stress. Without a solver in between, the operations do not read the stress (step_stress)."
  },
  {
   "property": "C90",
   "status": "partial",
   "theorems": [
    "Verif.MatrixUtils.mul3_eq",
    "Verif.MatrixUtils.mul2_eq",
    "Verif.MatrixUtils.transposeMul3_eq",
    "Verif.MatrixUtils.transposeMul2_eq",
    "Verif.MatrixUtils.mulTranspose3_eq",
    "Verif.MatrixUtils.mulTranspose2_eq",
    "Verif.MatrixUtils.mulSelfTranspose3_eq",
    "Verif.MatrixUtils.mulDiag3_eq",
    "Verif.MatrixUtils.mulDiag2_eq",
    "Verif.MatrixUtils.matDiagMatT3_eq",
    "Verif.MatrixUtils.matDiagMatT2_eq",
    "Verif.MatrixUtils.mulVec3_eq",
    "Verif.MatrixUtils.mulVec2_eq",
    "Verif.MatrixUtils.vecMul3_eq",
    "Verif.MatrixUtils.vecMul2_eq",
    "Verif.MatrixUtils.matTVec3_eq",
    "Verif.MatrixUtils.transpose_eq",
    "Verif.MatrixUtils.trace_eq",
    "Verif.MatrixUtils.det_eq",
    "Verif.MatrixUtils.cofactor3_adjugate",
    "Verif.MatrixUtils.cofactor2_cofactor",
    "Verif.MatrixUtils.cofactor3_violated",
    "Verif.MatrixUtils.cofactor3_symmetric_partial",
    "Verif.MatrixUtils.crossMul_violated",
    "Verif.MatrixUtils.crossMul_partial",
    "Verif.MatrixUtils.deviatoric_eq",
    "Verif.MatrixUtils.mulDiag_inPlace",
    "Verif.MatrixUtils.inPlace_violated"
   ],
   "note": "vec_crossMul_vec_3D adds where the cross product subtracts (crossMul_violated). matrixCofactor3d returns the adjugate and not, like matrixCofactor2d, the cofactors (cofactor3_violated). Transpose and product may not write to their own input (inPlace_violated). Exact arithmetic."
  },
  {
   "property": "C91",
   "status": "partial",
   "theorems": [
    "Verif.Stress.vm_stress",
    "Verif.Stress.vm_yield_partial",
    "Verif.Stress.vm_elastic",
    "Verif.Stress.vm_mean_violated",
    "Verif.Stress.sand_stress",
    "Verif.Stress.sand_defined",
    "Verif.Stress.sand_mu_violated",
    "Verif.Stress.sand_yield_partial",
    "Verif.Stress.sand_tip",
    "Verif.Stress.sand_elastic_partial",
    "Verif.Stress.sand_elastic_violated",
    "Verif.Stress.nacc_stress",
    "Verif.Stress.nacc_elastic",
    "Verif.Stress.nacc_tip",
    "Verif.Stress.nacc_surface_partial",
    "Verif.Stress.nacc_p0_violated"
   ],
   "note": "Exact real arithmetic, the decomposition is an argument. The von Mises projection does not keep the mean stress (vm_mean_violated). Sand divides by zero without shear modulus (sand_mu_violated) and changes states inside of the cone when a volume change is stored (sand_elastic_violated). Cam-Clay takes a sine instead of a hyperbolic sine, so that the yield pressure becomes negative (nacc_p0_violated); its deviatoric stress is on the surface for the trial volume only. The update of logJp of Cam-Clay is not modelled."
  },
  {
   "property": "C92",
   "status": "partial",
   "theorems": [
    "Verif.Shapes.signed_unique",
    "Verif.Shapes.plane_signed",
    "Verif.Shapes.plane_box_violated",
    "Verif.Shapes.cuboid_signed",
    "Verif.Shapes.cuboid_distance",
    "Verif.Shapes.cuboid_box",
    "Verif.Shapes.cuboid_ofCenter",
    "Verif.Shapes.cuboid_vert",
    "Verif.Shapes.sphere_signed",
    "Verif.Shapes.sphere_normal",
    "Verif.Shapes.sphere_gradient",
    "Verif.Shapes.sphere_box",
    "Verif.Shapes.cylinder_signed",
    "Verif.Shapes.cylinder_box",
    "Verif.Shapes.uniform_coord"
   ],
   "note": "Exact real arithmetic. The bounding box of a plane is only its origin (plane_box_violated). The normals of cuboid and cylinder, which are finite differences, are not modelled."
  },
  {
   "property": "C93",
   "status": "partial",
   "theorems": [
    "Verif.Volumes.overlaps_boxes",
    "Verif.Volumes.overlaps_point",
    "Verif.Volumes.overlaps_spheres",
    "Verif.Volumes.overlaps_point_sphere",
    "Verif.Volumes.overlaps_negative_violated",
    "Verif.Volumes.merge_smallest",
    "Verif.Volumes.bounding_box",
    "Verif.Volumes.pt_exact",
    "Verif.Volumes.ee_exact",
    "Verif.Volumes.pt_conservative",
    "Verif.Volumes.ee_conservative",
    "Verif.Volumes.ray_tri_iff",
    "Verif.Volumes.ray_tri_exact",
    "Verif.Volumes.ray_tri_behind_violated",
    "Verif.Volumes.ray_tri_small_violated",
    "Verif.Volumes.ray_box_partial",
    "Verif.Volumes.ray_box_hit_violated",
    "Verif.Volumes.ray_box_miss_violated"
   ],
   "note": "No rounding; infinities and not-a-number are modelled in the box test. A ray inside the plane of a face is reported wrongly in both directions (ray_box_hit_violated, ray_box_miss_violated), so ray_box_partial excludes it. The triangle test returns parameters behind the origin (ray_tri_behind_violated) and misses small triangles for every tolerance (ray_tri_small_violated). Spheres of negative radius overlap points (overlaps_negative_violated)."
  },
  {
   "property": "C94",
   "status": "partial",
   "theorems": [
    "Verif.Collider.inside_iff",
    "Verif.Collider.velocity_is",
    "Verif.Collider.cross_skew",
    "Verif.Collider.normal_unit",
    "Verif.Collider.variants",
    "Verif.Collider.outside_keeps",
    "Verif.Collider.inside_contact",
    "Verif.Collider.inside_contact_given",
    "Verif.Collider.resolve_again",
    "Verif.Collider.speed_le",
    "Verif.Collider.sphere_erosion",
    "Verif.Collider.erosion_violated"
   ],
   "note": "Exact real arithmetic. The normal of the level set is assumed to be a unit vector where contacts are resolved. The erosion is measured before scaling and is not a distance in space (sphere_erosion, erosion_violated)."
  },
  {
   "property": "C95",
   "status": "partial",
   "theorems": [
    "Verif.Lbvs.seqSort_sorts",
    "Verif.Lbvs.build_holds",
    "Verif.Lbvs.build_axis",
    "Verif.Lbvs.refit_holds",
    "Verif.Lbvs.refit_mismatch",
    "Verif.Lbvs.locate_exact",
    "Verif.Lbvs.iter_exact",
    "Verif.Lbvs.self_iter_exact"
   ],
   "note": "Exact real arithmetic; loops run in order. The radix sort of line 132 is an argument: the ones of the host policies do not accept floating-point keys, so build compiles for devices only. The sequential merge sort that refit uses is proved to be such a sort (seqSort_sorts); the parallel one is not in general (C26)."
  },
  {
   "property": "C96",
   "status": "partial",
   "theorems": [
    "Verif.Bvtt.reorder_exact",
    "Verif.Bvtt.reorder_sorted",
    "Verif.Bvtt.reorder_overflow_violated",
    "Verif.Bvtt.push_exact",
    "Verif.Bvtt.push_again",
    "Verif.Bvtt.reserve_partial",
    "Verif.Bvtt.reserve_violated",
    "Verif.Bvtt.assign_exact",
    "Verif.Bvtt.create_exact",
    "Verif.Bvtt.read_exact",
    "Verif.Bvtt.reserve_capacity"
   ],
   "note": "Indices do not wrap around. Two statements fail in the code, with proofs: reserve copies the size, not the capacity up to which the view stores, so stored pairs get lost (reserve_violated; reserve_partial covers the pairs up to the size), and reorder after an overflow counts at the index that stands for nothing (reorder_overflow_violated). reorder never fills the member _offsets. The exclusive scan is taken to be exact (C22). Iterations are atomic steps because they write to separate cells."
  },
  {
   "property": "C97",
   "status": "partial",
   "theorems": [
    "Verif.Buckets.sparsity_exact",
    "Verif.Buckets.enlarge_exact",
    "Verif.Buckets.enlarge_plane",
    "Verif.Buckets.build_exact",
    "Verif.Buckets.lookup_partial",
    "Verif.Buckets.lookup_violated",
    "Verif.Buckets.neighbours_exact",
    "Verif.Buckets.range_tests"
   ],
   "note": "Exact arithmetic without overflow; table and scan by their contracts (C38, C22). bucketCoord always adds one half while the buckets are built with the displacement given by the caller: for another displacement the lookup fails (lookup_violated); lookup_partial and neighbours_exact are for one half. The search needs a radius of at most the cell width, and positions of the searched particles in the buckets; it is device code, of which the loop is modelled for one thread."
  },
  {
   "property": "C98",
   "status": "partial",
   "theorems": [
    "Verif.Particles.make_consistent",
    "Verif.Particles.addAttr_partial",
    "Verif.Particles.addAttr_violated",
    "Verif.Particles.append_partial",
    "Verif.Particles.append_violated",
    "Verif.Particles.append_refuses",
    "Verif.Particles.positions_exact",
    "Verif.Particles.stress_partial",
    "Verif.Particles.stress_plane_violated",
    "Verif.Particles.stress_volume_violated",
    "Verif.Particles.stress_empty_violated",
    "Verif.Particles.stress_none"
   ],
   "note": "Proved where both sets of attributes have the same names and kinds, and for gradients in space. The code breaks the rest, with proofs: attributes that only one side has end up too short (append_violated), the positions can be replaced by another kind (addAttr_violated), the determinant reads nine components in the plane (stress_plane_violated), and the changes of volume are looked up under the name of the gradient (stress_volume_violated). resize does not compile when used and is left out, and so is AppendParticles of ParticleOp.hpp (it indexes a flat vector of components twice)."
  },
  {
   "property": "C99",
   "status": "partial",
   "theorems": [
    "Verif.LevelSetDomain.mark_exact",
    "Verif.LevelSetDomain.refit_exact_partial",
    "Verif.LevelSetDomain.refit_empty_violated",
    "Verif.LevelSetDomain.extend_exact"
   ],
   "note": "Proved for grids in space that are not staggered. Shrinking is proved when at least one block has a marked cell; otherwise the code leaves the count and active keys of before beside an empty table, with proof (refit_empty_violated). Staggered grids and insertions that fail are left out."
  },
  {
   "property": "C100",
   "status": "partial",
   "theorems": [
    "Verif.Eikonal.upwind_unique",
    "Verif.Eikonal.collect_exact",
    "Verif.Eikonal.known_exact",
    "Verif.Eikonal.update_plane_partial",
    "Verif.Eikonal.update_other",
    "Verif.Eikonal.update_inside",
    "Verif.Eikonal.update_space_partial",
    "Verif.Eikonal.update_space_violated",
    "Verif.Eikonal.update_axis_violated",
    "Verif.Eikonal.seeds_partial",
    "Verif.Eikonal.seeds_violated"
   ],
   "note": "The loop is proved to keep the smallest distances in order for every dimension; the scheme with these is solved in the plane, and in space when the other distances are at least one cell more. The code breaks the rest, with proofs: in space the refinements never run because they are nested in the branch for the plane (update_space_violated), two neighbours on one axis are taken for two axes (update_axis_violated), and there is room for one seed per cell although each inner cell adds up to two per axis (seeds_violated). The search for blocks and the loop of the fill are left out."
  },
  {
   "property": "C101",
   "status": "partial",
   "theorems": [
    "Verif.Pcg.period",
    "Verif.Pcg.states",
    "Verif.Pcg.output_exact",
    "Verif.Pcg.equidistributed",
    "Verif.Pcg.seed_exact",
    "Verif.Pcg.call_random_exact",
    "Verif.Pcg.call_random_violated",
    "Verif.Pcg.seed_violated"
   ],
   "note": "Everything about the generator is proved in full. The dependence on the time is broken by the code, with proofs: the first number is zero for every time (call_random_violated), and the first digit of the time is shifted out of the seed because the terminating zero is shifted in (seed_violated)."
  },
  {
   "property": "C102",
   "status": "partial",
   "theorems": [
    "Verif.DenseField.create_exact",
    "Verif.DenseField.read_order",
    "Verif.DenseField.write_read",
    "Verif.DenseField.offset_block",
    "Verif.DenseField.offset_more",
    "Verif.DenseField.create_violated",
    "Verif.DenseField.coord_exact",
    "Verif.DenseField.coord_offset",
    "Verif.DenseField.chain_exact",
    "Verif.DenseField.chain_view_exact",
    "Verif.DenseField.view_exact",
    "Verif.DenseField.val_order",
    "Verif.DenseField.tensor_separate"
   ],
   "note": "Proved for shapes with fewer than 2^64 elements. A larger shape is accepted, its size wraps, and indices within the shape read outside the memory (create_violated). linearOffset and operator() of DenseFieldViewLite (py_interop/DenseFieldView.hpp lines 22-39) are the same text."
  },
  {
   "property": "C103",
   "status": "partial",
   "theorems": [
    "Verif.Sampling.poisson_exact",
    "Verif.Sampling.normal_exact",
    "Verif.Sampling.rand_p_exact_partial",
    "Verif.Sampling.rand_p_distribution_partial",
    "Verif.Sampling.rand_p_violated",
    "Verif.Sampling.rand_normal_violated",
    "Verif.Sampling.rand_normal_partial",
    "Verif.Sampling.rand_anti_normal_exact",
    "Verif.Sampling.box_exact",
    "Verif.Sampling.weights_exact",
    "Verif.Sampling.weights_onto",
    "Verif.Sampling.ball_exact",
    "Verif.Sampling.ball_onto",
    "Verif.Sampling.rotation2_exact",
    "Verif.Sampling.rotation3_exact"
   ],
   "note": "Points and rotations in full, over real numbers. rand_p is proved for integer parameters and numbers below one; for all other positive parameters, and for the number one, the loop does not end for some numbers (rand_p_violated), as the parameter is converted to int. rand_normal never returns zero or negative numbers and need not end (rand_normal_violated)."
  },
  {
   "property": "C104",
   "status": "partial",
   "theorems": [
    "Verif.TileIter.tiles_exact_partial",
    "Verif.TileIter.structures_exact_partial",
    "Verif.TileIter.tiles_violated",
    "Verif.TileIter.advance_exact",
    "Verif.TileIter.accessor_exact_partial",
    "Verif.TileIter.accessor_structures_partial",
    "Verif.TileIter.accessor_violated",
    "Verif.TileIter.small_inside",
    "Verif.TileIter.small_separate",
    "Verif.TileIter.small_segment_violated",
    "Verif.TileIter.small_components",
    "Verif.TileIter.small_components_violated"
   ],
   "note": "Offsets are computed in 32 bits: proved when they fit, and two elements share a cell when they do not (tiles_violated). The accessor is proved for elements of a power of two bytes; for 12 bytes it is wrong (accessor_violated). The constructor of the iterator over smaller values accepts segments outside the elements (small_segment_violated), and components of vectors of smaller values are not in successive channels (small_components, small_components_violated)."
  },
  {
   "property": "C105",
   "status": "partial",
   "theorems": [
    "Verif.DofView.set_get",
    "Verif.DofView.set_frame",
    "Verif.DofView.vectors_of_scalars",
    "Verif.DofView.set_vector_partial",
    "Verif.DofView.set_vector_violated",
    "Verif.DofView.set_extent_violated",
    "Verif.DofView.iterator_exact"
   ],
   "note": "Setting vectors is proved for vectors of the extent of the view, without channels or with entries that are vectors or traits of the same dimension. For scalars in channels of a container without dimension (TileVector) the vector is not read back and other elements are overwritten (set_vector_violated), and vectors of another extent are misplaced or dropped (set_extent_violated)."
  },
  {
   "property": "C106",
   "status": "partial",
   "theorems": [
    "Verif.MeshNormal.normals_exact",
    "Verif.MeshNormal.flat_exact",
    "Verif.MeshNormal.triangle_exact",
    "Verif.MeshNormal.isolated_violated",
    "Verif.MeshNormal.given_exact_partial",
    "Verif.MeshNormal.given_violated",
    "Verif.MeshNormal.part_exact_partial",
    "Verif.MeshNormal.bounds_exact",
    "Verif.MeshNormal.part_get",
    "Verif.MeshNormal.part_violated"
   ],
   "note": "Over real numbers. Vertices without triangles divide zero by zero (isolated_violated), also where a normal is given for them (given_violated). The function for a part of the mesh ignores nodeOffset: proved if the triangles use the first nodeNum vertices, and it writes outside the normals otherwise (part_violated)."
  },
  {
   "property": "C107",
   "status": "partial",
   "theorems": [
    "Verif.MeshIO.vtk_round_trip",
    "Verif.MeshIO.vtk_last_line",
    "Verif.MeshIO.vtk_points_violated",
    "Verif.MeshIO.obj_exact",
    "Verif.MeshIO.obj_plane_exact",
    "Verif.MeshIO.load_exact",
    "Verif.MeshIO.load_corners_partial",
    "Verif.MeshIO.load_corners_violated"
   ],
   "note": "Texts character by character; printing coordinates is a parameter, so that the loss of digits of operator<< is in rd. A VTK file with several points on a line, which the format allows, loses points (vtk_points_violated). load_obj does not shift the indices: proved for an empty mesh, and appended triangles have corners of the old mesh (load_corners_violated). Computed normals and texture coordinates of load_obj are not covered."
  },
  {
   "property": "C108",
   "status": "partial",
   "theorems": [
    "Verif.CopyPtr.values_exact",
    "Verif.CopyPtr.owners_separate",
    "Verif.CopyPtr.objects_exact",
    "Verif.CopyPtr.released_kept",
    "Verif.CopyPtr.copy_partial",
    "Verif.CopyPtr.copy_null_violated"
   ],
   "note": "Everything but the last sentence holds. The copy constructor and the copy assignment read through the source, so copying a null pointer, which is what the default constructor makes, is undefined (copy_null_violated); proved for sources that are not null (copy_partial), and values_exact has the exact condition. Default deleters; conversions from pointers to derived types are not covered, nor copy constructors that throw."
  },
  {
   "property": "C109",
   "status": "partial",
   "theorems": [
    "Verif.ExactGeo.degenerate_exact",
    "Verif.ExactGeo.segment_exact",
    "Verif.ExactGeo.ray_exact_partial",
    "Verif.ExactGeo.ray_violated",
    "Verif.ExactGeo.ray_segment_exact_partial",
    "Verif.ExactGeo.triangle_exact",
    "Verif.ExactGeo.ray_triangle_exact",
    "Verif.ExactGeo.ray_plane_exact_partial",
    "Verif.ExactGeo.ray_degenerate_exact_partial",
    "Verif.ExactGeo.first_ray_violated",
    "Verif.ExactGeo.phi_exact",
    "Verif.ExactGeo.tet_phi_exact",
    "Verif.ExactGeo.tet_exact",
    "Verif.ExactGeo.orient2d_violated"
   ],
   "note": "Holds for is_triangle_degenerated, point_on_segment, point_inter_triangle, rays from outside of the plane of a triangle, phi, get_tet_phi and is_point_inside_tet. point_on_ray has <= where < is meant for the second and third component, and finds no point on any ray for which one of them is zero (ray_violated), such as the first ray of the collision tests (first_ray_violated); what depends on it is proved for rays where both are not zero (ray_exact_partial, ray_segment_exact_partial, ray_plane_exact_partial, ray_degenerate_exact_partial). For a ray in the plane the two edges at the first corner are covered, as in the code. The two-dimensional orient2d reads outside of its vectors (orient2d_violated); the other theorems take the values that it uses. The signs of determinants are exact: the adaptive arithmetic of Predicates.hpp and the rounding of differences of points are not modelled, nor the parity counts of the collision tests."
  },
  {
   "property": "C110",
   "status": "partial",
   "theorems": [
    "Verif.ExactCcd.vf_box_sound",
    "Verif.ExactCcd.ee_box_sound",
    "Verif.ExactCcd.vf_ends_partial",
    "Verif.ExactCcd.vf_edges_partial",
    "Verif.ExactCcd.ee_border_partial",
    "Verif.ExactCcd.degeneration_exact",
    "Verif.ExactCcd.plane_exact_partial",
    "Verif.ExactCcd.plane_edge_violated",
    "Verif.ExactCcd.vf_missed_violated",
    "Verif.ExactCcd.vf_false_violated",
    "Verif.ExactCcd.ee_missed_violated",
    "Verif.ExactCcd.ee_false_violated",
    "Verif.ExactCcd.inside_exact",
    "Verif.ExactCcd.outside_exact",
    "Verif.ExactCcd.outside_miss_exact",
    "Verif.ExactCcd.diagonal_violated",
    "Verif.ExactCcd.vf_curved_violated",
    "Verif.ExactCcd.vf_twice_violated",
    "Verif.ExactCcd.degeneration_line_exact",
    "Verif.ExactCcd.triangle_weights",
    "Verif.ExactCcd.outer_edge_exact",
    "Verif.ExactCcd.diagonal_exact",
    "Verif.ExactCcd.triangle_line_exact"
   ],
   "note": "Violated in both directions. For a plane patch ray_degenerated_bilinear_parity makes the edge between the second and third corner half-open, which is a border of the patch and not its diagonal; a ray through it is counted as a hit (plane_edge_violated) where it should be shot again. Two patches of the prism, and two of the hexahedron, share such an edge, which is then counted twice. So vertexFaceCCD misses a vertex that goes through the interior of a face at rest (vf_missed_violated) and reports a contact where there is none (vf_false_violated), and edgeEdgeCCD too (ee_missed_violated, ee_false_violated), whatever is drawn; the witnesses have small integer coordinates, no degenerate triangle, and do not depend on the faults of point_on_ray and orient2d. Proved: the boxes reject no contact; contacts at the start and the end with faces that are not degenerate, and contacts inside of patches that are not flat, are reported unless all eight rays are undecided (in which case the code returns false); the kinds of flat patches; the parity of rays from outside of the plane of a plane patch; the answer for rays from inside of the tetrahedron of a patch that is not flat (inside_exact), for rays from outside through the interiors of two of its facets (outside_exact) and past it (outside_miss_exact). A second defect: a ray from outside that leaves the tetrahedron through the diagonal 0-2 gets the parity 0 where it goes through the patch once (diagonal_violated), so vertexFaceCCD also misses a contact with a patch that is not flat (vf_curved_violated). As only the parity is counted, a vertex that goes through a face twice is reported as no contact (vf_twice_violated). Missing: rays from outside through the other edges and corners of a tetrahedron or from the planes of its facets 0 and 1, folded patches (a wrong rayXor survives all theorems, see seeded/LOG.jsonl), and that the sum over all patches and triangles is right for rays that meet no edge."
  },
  {
   "property": "C111",
   "status": "partial",
   "theorems": [
    "Verif.MpmSetup.setup_exact",
    "Verif.MpmSetup.groups_exact",
    "Verif.MpmSetup.group_unique",
    "Verif.MpmSetup.attributes_partial",
    "Verif.MpmSetup.plasticity_violated",
    "Verif.MpmSetup.plasticity_scene_violated",
    "Verif.MpmSetup.boundaries_partial",
    "Verif.MpmSetup.boundaries_violated",
    "Verif.MpmSetup.speed_exact",
    "Verif.MpmSetup.dt_stable_partial",
    "Verif.MpmSetup.dt_attained",
    "Verif.MpmSetup.dt_fluid_violated",
    "Verif.MpmSetup.dt_slow_violated",
    "Verif.MpmSetup.blocks_exact"
   ],
   "note": "Proved: the sets of particles with memories, configurations and models (setup_exact), the groups (groups_exact, group_unique, blocks_exact), and the time step for solids whose squared wave speed is at least the constant of sqrtNewtonRaphson (dt_stable_partial, dt_attained). Violated: particles of Drucker-Prager get no logJp, because the index of the variant, which has no alternative for StvkWithHencky, is compared with the enumerator (plasticity_violated, plasticity_scene_violated); a further scene replaces the boundaries of the scenes before (boundaries_violated); fluids do not limit the time step (dt_fluid_violated), nor do solids with slow waves (dt_slow_violated). Exact real arithmetic; a number of scenes whose particle sets fit an int. The sampling of positions and the builders of boundaries are not modelled."
  },
  {
   "property": "C112",
   "status": "proved",
   "theorems": [
    "Verif.VariantDispatch.dispatch_exact",
    "Verif.VariantDispatch.dispatch_once",
    "Verif.VariantDispatch.valueless_silent"
   ],
   "note": "All numbers of variants and alternatives. A variant without value is not reported: nothing is called (valueless_silent), where std::visit throws. CheckCallable is a parameter; it tests rvalues although lvalues are passed. FSM::dispatch of FiniteStateMachine.h calls match with the variant in place of the functions, cannot be compiled, and is not modelled."
  },
  {
   "property": "C113",
   "status": "partial",
   "theorems": [
    "Verif.LiteTile.read_exact",
    "Verif.LiteTile.read3_exact",
    "Verif.LiteTile.cells_distinct",
    "Verif.LiteTile.tile_exact",
    "Verif.LiteTile.pack_exact",
    "Verif.LiteTile.tuple_exact",
    "Verif.LiteTile.tile_at",
    "Verif.LiteTile.tile_pack_exact",
    "Verif.LiteTile.tile_tuple_exact",
    "Verif.LiteTile.has_exact",
    "Verif.LiteTile.index_exact",
    "Verif.LiteTile.tagged_index",
    "Verif.LiteTile.named_exact",
    "Verif.LiteTile.named_distinct",
    "Verif.LiteTile.named_tile_exact",
    "Verif.LiteTile.unknown_violated",
    "Verif.LiteTile.sample_tagged",
    "Verif.LiteTile.beyond_violated"
   ],
   "note": "Exact for channels and elements of the vector and for names of its properties. Without any check: a name that is no property reads the arrays of offsets and sizes behind their end (unknown_violated), and a channel beyond the size of a property is a cell of another property (beyond_violated). The tuple of a view of constant memory refers to mutable values because of a C-style cast, and tile of a named view of constant memory cannot be compiled; constness and the types TT are not modelled. int sums of offset and channel are taken not to overflow."
  },
  {
   "property": "C114",
   "status": "partial",
   "theorems": [
    "Verif.VecUtil.orthogonal_exact",
    "Verif.VecUtil.orthogonal_nonzero",
    "Verif.VecUtil.cross_exact",
    "Verif.VecUtil.cross_alias_violated",
    "Verif.VecUtil.orthogonal_alias_violated",
    "Verif.VecUtil.copy_exact",
    "Verif.VecUtil.sgn_exact"
   ],
   "note": "All vectors, exact rational arithmetic; input and output of orthogonalVector and cross must not overlap: in place the results are not orthogonal (cross_alias_violated, orthogonal_alias_violated), which nothing in the code excludes. vectorCopy is also correct in place. abs is unqualified in the code and taken to be the absolute value of the number; accesses outside of memory and rounding are not modelled."
  },
  {
   "property": "C115",
   "status": "partial",
   "theorems": [
    "Verif.TypeName.locate_exact",
    "Verif.TypeName.locate_open",
    "Verif.TypeName.brackets_exact",
    "Verif.TypeName.fixed_exact",
    "Verif.TypeName.clang_exact",
    "Verif.TypeName.gcc_exact",
    "Verif.TypeName.missing_violated",
    "Verif.TypeName.comparison_violated"
   ],
   "note": "All strings whose text between the brackets is balanced. A string without the left bracket is read behind its terminating zero (missing_violated), and a right bracket that is a comparison ends the arguments early (comparison_violated). The fixed starts are proved for the forms of __PRETTY_FUNCTION__ that gcc and clang are taken to give, which are assumptions about the compilers; the start for nvcc is not modelled, since the branch for gcc comes first where both macros are defined. The counters are natural numbers."
  },
  {
   "property": "C116",
   "status": "partial",
   "theorems": [
    "Verif.LiteBht.insert_exact",
    "Verif.LiteBht.insert_query",
    "Verif.LiteBht.insert_others",
    "Verif.LiteBht.active_exact",
    "Verif.LiteBht.count_bound",
    "Verif.LiteBht.flag_exact",
    "Verif.LiteBht.limit_violated",
    "Verif.LiteBht.flag_violated"
   ],
   "note": "One thread (calls by several threads are in C36 and C37, for the container), default arguments, keys other than the sentinel; a bucket is the list of its filled slots. Unlike the container, the view gives out the indices within 20 of the table size without a failure (limit_violated), and without buckets a refusal leaves the flag set (flag_violated). The branch for devices names types that BhtViewLite does not declare and is left out."
  },
  {
   "property": "C117",
   "status": "partial",
   "theorems": [
    "Verif.BitPack.pack_exact",
    "Verif.BitPack.spread_exact",
    "Verif.BitPack.pack_spread",
    "Verif.BitPack.spread_pack",
    "Verif.BitPack.edge_violated"
   ],
   "note": "All masks except zero and the one with the highest bit only, for which the code shifts by 64 (edge_violated). The result of bit_pack_cuda is cut to 32 bits as in the code, and the data of bit_spread_cuda is an int, so that masks with more than 32 bits get its sign. The intrinsics of the device are taken to do what their names say."
  }
 ]
}