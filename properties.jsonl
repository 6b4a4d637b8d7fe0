{"id": "C01", "title": "Ring buffer keeps the newest elements in order", "statement": "After any sequence of push and pop on an initially empty RingBuffer of capacity N>=1, size() never exceeds N, reading positions 0..size()-1 yields (oldest first) the elements that a bounded deque holds which drops its oldest element on overflow and its newest on pop, and back() is the newest of them.", "quantifier": "for every capacity N>=1, every element type and every finite history of push/pop (capacity 1: up to 2^31-2 pushes, the head counter is never wrapped there)", "why_tests_cant": "The wrap-around of two indices is reached at history-dependent points; tests sample few histories and capacities.", "anchors": ["include/zensim/container/RingBuffer.hpp: RingBuffer::push_back, pop, incHead, incTail, decTail, operator[], back"]}
{"id": "C02", "title": "Small strings are truncated C strings", "statement": "Constructing a BasicSmallString from a NUL terminated text keeps exactly the first (capacity-1) characters of the text, size() is that length, == holds exactly when the kept texts are equal, and a+b keeps the first (capacity-1) characters of the concatenation; the result is always NUL terminated and no byte outside the buffer is touched.", "quantifier": "for every capacity >= 1 and every pair of texts of any length", "why_tests_cant": "Off-by-one at the capacity boundary depends on both lengths; the text space is infinite.", "anchors": ["include/zensim/types/SmallVector.hpp: BasicSmallString ctor(const char*), size, operator==, operator+"]}
{"id": "C03", "title": "32-bit integer hash is invertible", "statement": "unhash(hash(x)) = x and hash(unhash(y)) = y for unsigned 32-bit integers, so distinct keys never share a hash.", "quantifier": "for every 32-bit unsigned value", "why_tests_cant": "Relies on modular inverses of magic constants and xor-shift inverses; exhaustive testing says nothing about why and is not run by the suite.", "anchors": ["include/zensim/math/Hash.hpp: hash, unhash (32-bit overloads)"]}
{"id": "C04", "title": "64-bit integer hash is invertible", "statement": "unhash(hash(x)) = x and hash(unhash(y)) = y for unsigned 64-bit integers, so distinct keys never share a hash.", "quantifier": "for every 64-bit unsigned value", "why_tests_cant": "2^64 inputs cannot be enumerated.", "anchors": ["include/zensim/math/Hash.hpp: hash, unhash (64-bit overloads)"]}
{"id": "C05", "title": "3D Morton codes interleave the coordinate bits", "statement": "Bit 3k+2-j of the Morton code of (x0,x1,x2) is bit k of coordinate j, for all k below the number of usable bits (10 for the 32-bit, 21 for the 64-bit version) and the code has no other bit; hence the map is injective on the usable grid and monotone in each coordinate; compacting inverts expanding.", "quantifier": "for every coordinate value in the usable range (2^10 resp. 2^21 per axis)", "why_tests_cant": "The 64-bit version has 2^63 coordinate triples and the masks are magic constants.", "anchors": ["include/zensim/math/bit/Bits.h: expand_bits_32, expand_bits_64, compact_bits_32, compact_bits_64, morton_3d_32, morton_3d_64"]}
{"id": "C06", "title": "Alignment rounding and next power of two", "statement": "round_down/round_up return the largest multiple <= n / the smallest multiple >= n of a power-of-two granularity; next_2pow(n) is the least power of two >= n for 1 <= n <= 2^(width-1) (1 for n=0); next_power_of_two(n) is the least power of two >= n for 1 <= n <= 2^31; bit_count(n) is the number of binary digits needed to index n items (digits of n-1), bit_length(n) the number of binary digits of n.", "quantifier": "for every n whose result fits the integer type and every power-of-two granularity", "why_tests_cant": "Boundary behaviour at powers of two and near overflow over 2^64 values.", "anchors": ["include/zensim/math/bit/Bits.h: round_down, round_up, next_2pow, next_power_of_two, bit_count"]}
{"id": "C07", "title": "Bit counting utilities", "statement": "count_leading_zeros(n) is the width minus the number of binary digits of n, is_bit_on reports bit i, interleaved_bit_mask(d) has exactly the bits divisible by d, num_bits_on is the population count and binary_reverse maps bit i to bit width-1-i.", "quantifier": "for every value of the integer type", "why_tests_cant": "Value space too large; loop-based code with shift boundaries.", "anchors": ["include/zensim/math/bit/Bits.h: bit_count, bit_length, count_leading_zeros, num_bits_on, binary_reverse"]}
{"id": "C08", "title": "bit_mask behaves as a finite set", "statement": "For single-bit operations, a bit_mask<Size> is the set of positions that are on: setOn/setOff/toggle at n change membership of n only, isOn reports it, countOn is the number of members, countOffset(n) the number of members below n, findFirstOn/findNextOn(start) the least member (>= start), findFirstOff/findNextOff the least non-member, with Size returned when there is none.", "quantifier": "for every Size, every history of operations and every query position below Size", "why_tests_cant": "Word boundaries (multiples of 64) interact with histories; bit patterns are exponentially many.", "anchors": ["include/zensim/types/Mask.hpp: bit_mask::setOn, setOff, toggle, isOn, countOn, countOffset, findFirstOn, findFirstOff, findNextOn, findNextOff"]}
{"id": "C09", "title": "bit_mask whole-set operations stay inside the universe", "statement": "After setOn() (all), toggle() (all) or complement, countOn() never exceeds Size and is the cardinality of the corresponding subset of {0..Size-1}; &,|,-,^ act as set algebra.", "quantifier": "for every Size and every contents", "why_tests_cant": "Fails or holds depending on Size mod 64; tests use multiples of 64.", "anchors": ["include/zensim/types/Mask.hpp: bit_mask::setOn(), setOff(), toggle(), operator!, operator&=, |=, -=, ^="]}
{"id": "C10", "title": "Callback registry returns unique live handles", "statement": "insert returns an identifier that is not currently in use, the inserted callback is invoked by every later call until erased/overwritten/cleared, and a call runs every registered callback exactly once in identifier order.", "quantifier": "for every history of insert/assign/erase/clear/call", "why_tests_cant": "Depends on interleaving of assign with explicit identifiers and automatic numbering.", "anchors": ["include/zensim/container/Callables.hpp: callbacks::insert, assign, erase, clear, operator()"]}
{"id": "C11", "title": "Strided integer range visits the same values sequentially and in parallel", "statement": "range(begin,end,step) visits begin, begin+step, ... strictly before end, each exactly once, whether iterated by a range-for or by an execution policy that splits it by distance.", "quantifier": "for all begin, end and non-zero step", "why_tests_cant": "Depends on divisibility of (end-begin) by step and on the iteration mechanism.", "anchors": ["include/zensim/ZpcIterator.hpp: IndexIterator::advance, distance_to, equal_to, detail::iter_range, range"]}
{"id": "C12", "title": "Collapse visits every multi-index exactly once in lexicographic order", "statement": "Iterating a Collapse over extents (n0,...,nk) yields all tuples with 0<=i_d<n_d, each once, in lexicographic order, and none when an extent is zero.", "quantifier": "for every number of dimensions and all extents", "why_tests_cant": "Number of dimensions and extents unbounded; zero extents are corner cases.", "anchors": ["include/zensim/ZpcIterator.hpp: Collapse, Collapse::iterator increment/equal_to"]}
{"id": "C13", "title": "zip stops at the shortest range", "statement": "Iterating zip(r1,...,rk) yields min(|r1|,...,|rk|) tuples, the i-th one holding the i-th element of every range; enumerate additionally supplies the index i.", "quantifier": "for all ranges and lengths, at least one range", "why_tests_cant": "Relative lengths matter; end comparison is by any component.", "anchors": ["include/zensim/ZpcIterator.hpp: zip_iterator::equal_to, distance_to, advance, zip, enumerate"]}
{"id": "C14", "title": "Chunked views partition the range", "statement": "Iterating chunk(range, n) yields consecutive pieces of length n (the last one possibly shorter) whose concatenation is the range.", "quantifier": "for all ranges and chunk sizes >= 1", "why_tests_cant": "Loop termination is decided by an iterator comparison for every position.", "anchors": ["include/zensim/ZpcIterator.hpp: chunk_view, chunk iterator equal_to, dereference"]}
{"id": "C15", "title": "Integer gcd/lcm/power helpers", "statement": "gcd(u,v) divides both arguments and is divisible by every common divisor, lcm(u,v)*gcd(u,v)=u*v up to sign, pow_integral(b,e)=b^e for e>=0.", "quantifier": "for all integers (no overflow)", "why_tests_cant": "Unbounded arguments; recursion depth and sign combinations.", "anchors": ["include/zensim/ZpcMathUtils.hpp: math::gcd, math::lcm, math::pow_integral, pow_integral_recursive"]}
{"id": "C16", "title": "Rational arithmetic is exact", "statement": "For rationals with non-zero denominators, +,-,*,/ and unary minus yield a numerator/denominator pair denoting exactly the mathematical result, with non-zero denominator, as long as no intermediate leaves the 64-bit range.", "quantifier": "for all operand pairs with non-zero denominators without overflow", "why_tests_cant": "Operand space is 2^256.", "anchors": ["include/zensim/math/Rational.hpp: rational::operator+=, -=, *=, /=, canonicalize"]}
{"id": "C17", "title": "Rational results stay in canonical form", "statement": "If the operands are in lowest terms with positive denominator, so is the result of every arithmetic operation; consequently == coincides with equality of values and the sign query with the sign of the value.", "quantifier": "for all canonical operand pairs", "why_tests_cant": "Sign of intermediate gcds depends on the operands in a non-obvious way.", "anchors": ["include/zensim/math/Rational.hpp: rational::operator+=, -=, *=, /=, operator==, get_sign", "include/zensim/ZpcMathUtils.hpp: math::gcd"]}
{"id": "C18", "title": "Rational comparison is the numerical order", "statement": "a<b holds exactly when the value of a is smaller than the value of b, for operands with positive denominators; the comparison always terminates.", "quantifier": "for all operand pairs with positive denominator", "why_tests_cant": "Continued-fraction loop of data dependent length.", "anchors": ["include/zensim/math/Rational.hpp: rational operator<"]}
{"id": "C19", "title": "Dyadic numbers used by continuous collision detection are exact", "statement": "Addition, comparison and interval bisection of NumCCD numbers k/2^n agree with the rational values they denote; is_sum_leq_1 decides a+b<=1.", "quantifier": "for all dyadic operands without 64-bit overflow", "why_tests_cant": "Alignment of powers and 8-bit exponent arithmetic over 2^144 operand pairs.", "anchors": ["include/zensim/math/Rational.hpp: NumCCD operator+, <, <=, is_sum_leq_1, Interval::bisect"]}
{"id": "C20", "title": "The interval root finder reports the earliest contact first", "statement": "The work list of the CCD root finder hands out the pending box with the smallest start time, so the first accepted box has the smallest start time of all pending boxes.", "quantifier": "for every set of pending boxes", "why_tests_cant": "Depends on the ordering of arbitrarily many pending boxes.", "anchors": ["include/zensim/math/Rational.hpp: interval_root_finder_DFS, popPriority"]}
{"id": "C21", "title": "Parallel inclusive scan equals the sequential prefix sums", "statement": "For every input, number of threads and schedule the parallel inclusive scan writes at position i the combination x0 op ... op xi in order, for associative op.", "quantifier": "for every input length, thread count, associative operation", "why_tests_cant": "Result depends on thread count and on algebraic laws of op; a test fixes both.", "anchors": ["include/zensim/omp/execution/ExecutionPolicy.hpp: OmpExecutionPolicy::inclusive_scan_impl", "include/zensim/execution/ExecutionPolicy.hpp: SequentialExecutionPolicy::inclusive_scan"]}
{"id": "C22", "title": "Parallel exclusive scan equals the sequential one", "statement": "For every input, initial value and thread count the parallel exclusive scan writes init op x0 op ... op x(i-1) at position i, as the sequential policy does.", "quantifier": "for every input, init, thread count and associative commutative op", "why_tests_cant": "Thread-count dependent handling of init.", "anchors": ["include/zensim/omp/execution/ExecutionPolicy.hpp: exclusive_scan_impl", "include/zensim/execution/ExecutionPolicy.hpp: exclusive_scan"]}
{"id": "C23", "title": "Parallel reduce equals the sequential fold", "statement": "For every input, initial value and thread count the parallel reduction returns init op x0 op ... op x(n-1).", "quantifier": "for every input, init, thread count and associative op", "why_tests_cant": "Thread-count dependent handling of init and combination tree.", "anchors": ["include/zensim/omp/execution/ExecutionPolicy.hpp: reduce_impl", "include/zensim/execution/ExecutionPolicy.hpp: reduce"]}
{"id": "C24", "title": "Radix sort is a stable sort by the selected key bits", "statement": "radix_sort(_pair) over bits [sbit,ebit) outputs a permutation of the input (values moved with their keys), ordered by the selected bits, equal selected bits keep input order; the result does not depend on the number of threads.", "quantifier": "for every input, bit range inside the key width and thread count", "why_tests_cant": "Thread partition and bin contents are arbitrary.", "anchors": ["include/zensim/omp/execution/ExecutionPolicy.hpp: radix_sort_pair_impl, radix_sort_impl", "include/zensim/execution/ExecutionPolicy.hpp: radix_sort_pair, radix_sort"]}
{"id": "C25", "title": "Radix sort on signed keys sorts numerically", "statement": "With the full bit range and signed keys radix_sort outputs the keys in ascending signed order.", "quantifier": "for every input of signed 32-bit (and 64-bit) keys", "why_tests_cant": "Sign-bit flip trick over all values.", "anchors": ["include/zensim/omp/execution/ExecutionPolicy.hpp: radix_sort_pair_impl, radix_sort_impl"]}
{"id": "C26", "title": "merge_sort is a stable sort under every thread count", "statement": "merge_sort / merge_sort_pair output a sorted permutation and keep the order of equivalent keys, for every strict weak order, input and thread count.", "quantifier": "for every input length, thread count and strict weak order", "why_tests_cant": "Buffer parity depends on chunk sizes, hence on (length, thread count) pairs.", "anchors": ["include/zensim/omp/execution/ExecutionPolicy.hpp: merge_sort_pair_impl, merge_sort_impl", "include/zensim/execution/ExecutionPolicy.hpp: merge_sort_pair"]}
{"id": "C27", "title": "sort_pair sorts by the comparator passed in", "statement": "sort_pair outputs key/value pairs that are a permutation of the input pairs, ordered by the given comparison.", "quantifier": "for every input and strict weak order", "why_tests_cant": "Comparator and input arbitrary.", "anchors": ["include/zensim/execution/ExecutionPolicy.hpp: quick_sort_impl, sort_pair", "include/zensim/omp/execution/ExecutionPolicy.hpp: sort_pair"]}
{"id": "C28", "title": "Vector keeps its elements", "statement": "Under construction, destruction, copy, move, swap, push_back (also of an own element), append (also to itself), resize, clear, element assignment and reorder a Vector's observable contents equal those of an abstract sequence (elements created by growing are unspecified), size never exceeds capacity and appending n elements reallocates O(log n) times.", "quantifier": "for every history of operations", "why_tests_cant": "Growth depends on history; aliasing between argument and storage.", "anchors": ["include/zensim/container/Vector.hpp: Vector::push_back, resize, reserve, append, geometric_size_growth, reorder"]}
{"id": "C29", "title": "TileVector cells are independent and survive structural changes", "statement": "Distinct (channel, element) pairs of a TileVector are distinct storage cells inside the allocated buffer; property offsets partition the channels; append_channels keeps every existing property value, zero-fills the new ones and leaves the container unchanged when it rejects; resizing keeps the surviving elements.", "quantifier": "for all tile lengths >= 1, channel counts, sizes, tag lists", "why_tests_cant": "Index arithmetic over unbounded sizes and tag lists.", "anchors": ["include/zensim/container/TileVector.hpp: operator[], operator(), getPropertyOffset, append_channels, resize"]}
{"id": "C30", "title": "Type-erased function destroys every held callable exactly once", "statement": "For every history of construct/assign/copy/move/destroy on function objects each callable object created inside them is destroyed exactly once, and a call invokes the most recently assigned callable.", "quantifier": "for every history over any number of function objects", "why_tests_cant": "Leaks and double frees depend on operation order.", "anchors": ["include/zensim/ZpcFunction.hpp: function ctor, operator=(F&&), operator=(const function&), operator=(function&&), ~function"]}
{"id": "C31", "title": "UniquePtr owns exactly once", "statement": "For every history of construct/move/reset/release/swap/destroy, no object is deleted twice, an object held by a pointer is alive, and every object not released is deleted by the time all pointers are gone.", "quantifier": "for every history over any number of pointers, including self moves and self swaps", "why_tests_cant": "Ownership errors depend on operation order and aliasing.", "anchors": ["include/zensim/ZpcResource.hpp: UniquePtr move ctor, operator=, reset, release, swap, ~UniquePtr"]}
{"id": "C32", "title": "Mutex guarantees mutual exclusion", "statement": "At any time at most one thread is between a successful lock/try_lock and its unlock.", "quantifier": "for every number of threads and every interleaving, including spurious wake-ups", "why_tests_cant": "Races occur on schedules tests do not produce.", "anchors": ["include/zensim/execution/ConcurrencyPrimitive.hpp: Mutex", "include/zensim/execution/ConcurrencyPrimitive.cpp: Mutex::lock, try_lock, unlock"]}
{"id": "C33", "title": "Waking a waiter removes and signals the right waiter", "statement": "unpark(key, ONE) on the wait queue signals exactly one waiter parked on that key and leaves the other waiters in the queue; every waiter can be woken by later calls.", "quantifier": "for every queue contents and history of park/unpark", "why_tests_cant": "Needs two or more simultaneous waiters in specific order.", "anchors": ["include/zensim/execution/ConcurrencyPrimitive.cpp: ParkingLot::unpark, WaitQueue::erase, insertHead"]}
{"id": "C34", "title": "Atomic read-modify-write helpers are linearizable", "statement": "When any number of threads execute atomic_add/atomic_min/atomic_max concurrently, the final value is the initial value combined with all arguments, and each call returns the value immediately before its own effect in some total order.", "quantifier": "for every number of threads, every argument multiset, every interleaving of loads and compare-exchanges", "why_tests_cant": "Lost updates only show on rare schedules.", "anchors": ["include/zensim/execution/Atomics.hpp: atomic_add_impl, atomic_max, atomic_min, atomic_cas"]}
{"id": "C35", "title": "threadsafe_queue is FIFO", "statement": "Under any interleaving of push, try_pop and wait_and_pop each pushed element is popped at most once and elements leave in the order they were pushed.", "quantifier": "for every number of threads and interleaving", "why_tests_cant": "Schedule dependent.", "anchors": ["include/zensim/execution/Concurrency.h: threadsafe_queue::push, try_pop, wait_and_pop"]}
{"id": "C36", "title": "Concurrent hash-table insertion assigns each key one dense index", "statement": "When any number of threads insert arbitrary keys into a bht concurrently and no insertion reports failure, each distinct key gets exactly one index, exactly one inserter of that key receives the index and the others receive the 'already present' token; the assigned indices are 0..m-1 where m is the number of distinct keys, and activeKeys[i] is the key with index i.", "quantifier": "for every number of threads, key assignment and interleaving", "why_tests_cant": "Data races in the probe/claim protocol.", "anchors": ["include/zensim/container/Bht.hpp: BHTView::tile_insert/insert, query"]}
{"id": "C37", "title": "Hash-table query returns what was inserted", "statement": "After all insertions completed, query(k) returns the index assigned to k when k was inserted and the sentinel otherwise; resize keeps this.", "quantifier": "for every set of keys and hash functions", "why_tests_cant": "Depends on collisions and bucket overflow, which tests do not control.", "anchors": ["include/zensim/container/Bht.hpp: BHTView::query, bht::resize"]}
{"id": "C38", "title": "Open addressing HashTable finds every inserted key inside its storage", "statement": "Every probe of insert and query stays within the table, a key inserted into a table with a free slot is found afterwards with its index, and an absent key is reported absent.", "quantifier": "for every hash function, key history and table size", "why_tests_cant": "Wrap-around at exactly the table size occurs only for particular hash values.", "anchors": ["include/zensim/container/HashTable.hpp: HashTableView::insert, query, entry"]}
{"id": "C39", "title": "Cuckoo table never loses a key", "statement": "After a sequence of insertions into a bcht all of which succeed, query of every inserted key returns its index and every key has one index.", "quantifier": "for every hash triple and insertion order", "why_tests_cant": "Eviction chains depend on hash collisions.", "anchors": ["include/zensim/container/Bcht.hpp: BCHTView::insert, query"]}
{"id": "C40", "title": "RBTreeMap behaves as a finite map", "statement": "After any sequence of insert/erase/clear the map holds exactly the pairs of the abstract finite map (later insert of an equal key replaces the value), get/contains/size agree with it.", "quantifier": "for every strict total order and history of operations", "why_tests_cant": "Rebalancing paths depend on history.", "anchors": ["include/zensim/container/RBTreeMap.hpp: insert, remove, get, contains, size"]}
{"id": "C41", "title": "RBTreeMap stays balanced", "statement": "After any sequence of insert/erase the root is black, no red node has a red child, all paths carry the same number of black nodes; hence a lookup inspects at most 2*log2(n+1) nodes.", "quantifier": "for every history", "why_tests_cant": "Invariant over unbounded histories.", "anchors": ["include/zensim/container/RBTreeMap.hpp: maintainAfterInsert, maintainAfterRemove, rotateLeft, rotateRight"]}
{"id": "C42", "title": "RBTreeMap iteration and bounds are ordered", "statement": "Iteration yields the keys in strictly ascending order each once; lower_bound/upper_bound return the first key not less than / greater than the argument.", "quantifier": "for every reachable tree and argument", "why_tests_cant": "Depends on tree shape.", "anchors": ["include/zensim/container/RBTreeMap.hpp: iterator operator++, lower_bound, upper_bound"]}
{"id": "C43", "title": "union_find labels connected components", "statement": "After the concurrent union-find pass over a symmetric adjacency, two vertices have the same representative exactly when they are connected.", "quantifier": "for every graph, number of threads and interleaving of reads, writes and compare-exchanges", "why_tests_cant": "Benign races by design; schedule dependent.", "anchors": ["include/zensim/graph/ConnectedComponents.hpp: union_find"]}
{"id": "C44", "title": "Colouring is proper and complete", "statement": "The independent-set colouring assigns every vertex a colour between 1 and the returned count and adjacent vertices get different colours.", "quantifier": "for every symmetric graph and weight assignment", "why_tests_cant": "Depends on weights, ties and round structure.", "anchors": ["include/zensim/graph/Coloring.hpp: fast_independent_sets, maximum_independent_sets"]}
{"id": "C45", "title": "Maximum flow value is maximal", "statement": "When the augmenting loop stops, the accumulated value is the value of a feasible flow and no feasible flow is larger.", "quantifier": "for every capacity network", "why_tests_cant": "Optimality over all flows.", "anchors": ["include/zensim/graph/MaximumFlow.hpp"]}
{"id": "C46", "title": "Sparse matrix built from triplets is the sum of the triplets", "statement": "After build from (i,j,v) triplets the entry (i,j) equals the sum of all v given for (i,j), absent positions read as the default, every row pointer range holds distinct columns, and the result does not depend on processing order.", "quantifier": "for every triplet list and processing order", "why_tests_cant": "Order of parallel insertion is arbitrary.", "anchors": ["include/zensim/math/matrix/SparseMatrix.hpp: SparseMatrix::build, operator()(i,j)"]}
{"id": "C47", "title": "Sparse transpose swaps indices", "statement": "transposeFrom(o)(j,i) = o(i,j) for all i,j and the dimensions are swapped.", "quantifier": "for every matrix, both storage orders", "why_tests_cant": "Non-square and in-place cases.", "anchors": ["include/zensim/math/matrix/SparseMatrix.hpp: transposeFrom, transpose"]}
{"id": "C48", "title": "Sparse matrix-vector product is the mathematical product", "statement": "spmv writes sum_j A(i,j)*x(j) at row i for row-major and column-major storage, under every schedule of the parallel accumulation.", "quantifier": "for every matrix, vector and schedule", "why_tests_cant": "Schedule of atomic additions; non-square matrices.", "anchors": ["include/zensim/math/matrix/SparseMatrixOperations.hpp: spmv, spmv_classic, spmv_mask"]}
{"id": "C49", "title": "Binary search for a sparse entry is safe and exact", "statement": "On a row with sorted distinct columns, the binary-search locate returns the position of the column if present and 'not found' otherwise, without reading outside the row.", "quantifier": "for every matrix and query", "why_tests_cant": "Index underflow only at the first row.", "anchors": ["include/zensim/math/matrix/SparseMatrix.hpp: SparseMatrixView::locate (binary), exist"]}
{"id": "C50", "title": "BVH traversal reports exactly the overlapping primitives", "statement": "iter_neighbors visits every leaf whose box overlaps the query exactly once, in layout order, and no other, for every tree whose parent boxes contain their children's boxes.", "quantifier": "for every binary tree, boxes and query", "why_tests_cant": "Skip pointers over arbitrary tree shapes.", "anchors": ["include/zensim/container/Bvh.hpp: LBvhView::iter_neighbors"]}
{"id": "C51", "title": "Bottom-up BVH refit is schedule independent", "statement": "After the parallel refit every internal node's box is the union of the boxes of the leaves below it, each node being written once.", "quantifier": "for every tree and every interleaving of the threads", "why_tests_cant": "First/second-arrival protocol.", "anchors": ["include/zensim/container/Bvh.hpp: LBvh::refit, _refit_bottom_up"]}
{"id": "C52", "title": "Spatial hash reports every primitive overlapping the query", "statement": "After build(policy, dx, boxes) has returned, iter_neighbors(box, f) calls f with every stored primitive whose box overlaps the query box and iter_neighbors(point, f) with every primitive whose box contains the point; f is called only with primitives less than one cell away; no access leaves the arrays.", "quantifier": "for every set of boxes, cell size and query, and every interleaving of the kernels of build", "why_tests_cant": "Cell boundary cases; retries with a larger hash table depend on collisions and on the schedule.", "anchors": ["include/zensim/container/SpatialHash.hpp: build, iter_neighbors"]}
{"id": "C53", "title": "Stack allocator hands out aligned disjoint blocks", "statement": "Under LIFO use every block returned by stack_allocator is aligned, inside the buffer and disjoint from all live blocks; a failed allocation leaves the allocator usable.", "quantifier": "for every buffer, alignment and allocation history", "why_tests_cant": "Alignment padding and exhaustion depend on history.", "anchors": ["include/zensim/memory/Allocator.h: stack_allocator", "include/zensim/memory/Allocator.cpp: stack_allocator::allocate, deallocate"]}
{"id": "C54", "title": "Growing buffer resource preserves blocks", "statement": "Every block returned by handle_resource is aligned to the requested alignment, inside the current buffer, and stays valid until deallocated.", "quantifier": "for every history of allocations", "why_tests_cant": "Growth happens at a history dependent point.", "anchors": ["include/zensim/memory/Allocator.cpp: handle_resource::do_allocate, do_deallocate"]}
{"id": "C55", "title": "Virtual memory residency is tracked exactly", "statement": "check_residency(offset,bytes) is true only if every page of the range lies inside the reserved space and was committed and not evicted since; commit makes it true; evict never removes pages outside the range.", "quantifier": "for every history of commit/evict and every range", "why_tests_cant": "Page rounding and histories.", "anchors": ["include/zensim/memory/Allocator.cpp: arena_virtual_memory_resource, stack_virtual_memory_resource do_commit, do_evict, do_check_residency"]}
{"id": "C56", "title": "Address mixing in the parking lot is a bijection", "statement": "twang_unmix64 inverts twang_mix64, so different wait addresses never get identical mixed keys.", "quantifier": "for all 64-bit values", "why_tests_cant": "2^64 values.", "anchors": ["include/zensim/execution/ConcurrencyPrimitive.cpp: twang_mix64, twang_unmix64"]}
{"id": "C57", "title": "Recorded allocations are freed once", "statement": "When any number of threads call Resource::deallocate on the same recorded pointer, the memory is released exactly once and the other calls report an error.", "quantifier": "for every interleaving", "why_tests_cant": "Check-then-act race.", "anchors": ["include/zensim/resource/Resource.cpp: Resource::deallocate", "include/zensim/execution/Concurrency.h: concurrent_map"]}
{"id": "C58", "title": "LBVH construction yields a binary radix tree over the sorted leaves", "statement": "build on three or more primitives sorts their Morton codes and lays out, in preorder, the binary radix tree of the sorted codes (equal codes included): every range of leaves is split in two non-empty consecutive ranges where its codes first differ, the leaves follow in sorted order, and escape links, parents and levels are those of the tree, whatever the order of the writes. After build on any positive number of primitives the queries of C50 are exact.", "quantifier": "for every number of primitives, all codes (duplicates allowed), every interleaving of the kernels' writes", "why_tests_cant": "Arbitrary code prefixes, duplicates and schedules.", "anchors": ["include/zensim/container/Bvh.hpp: LBvh::build, _build_init_depths, _build_build_topo, _build_supp_topo, _build_reorder_leaf, _build_reorder_trunk"]}
{"id": "C59", "title": "Whole-word bit reversal reverses the order of the bits", "statement": "reverse_bits(v) yields the word whose bit i is bit (width-1-i) of v.", "quantifier": "for every word", "why_tests_cant": "2^64 words.", "anchors": ["include/zensim/execution/Intrinsics.hpp: reverse_bits (host)"]}
{"id": "C60", "title": "The portable trailing-zero count is exact", "statement": "The De Bruijn based fallback of count_tailing_zeros returns, for every non-zero word, the index of its lowest set bit, and agrees with the hardware primitive.", "quantifier": "for all 8-, 32- and 64-bit words", "why_tests_cant": "2^64 inputs; a wrong table entry shows on few words only.", "anchors": ["include/zensim/execution/Intrinsics.hpp: count_tailing_zeros (host)", "include/zensim/types/Mask.hpp: findFirstOn, findNextOn"]}
{"id": "C61", "title": "The CCD root finders never miss a contact", "statement": "If the two primitives touch at some parameters (t,u,v) of the unit cube (u+v<=1 for vertex-face), the root finders never return false, provided the box test does not reject a box containing a contact.", "quantifier": "for all motions, box tests, split orders, tolerances and iteration limits", "why_tests_cant": "Subdivision sequences are unbounded and include stack exhaustion and 64-bit overflow.", "anchors": ["include/zensim/math/Rational.hpp: interval_root_finder_DFS, interval_root_finder_BFS, split_and_push, Interval::bisect, NumCCD::is_sum_leq_1"]}
{"id": "C62", "title": "HashTable resize and preserve keep the mapping", "statement": "After resize or preserve of a HashTable every key that was kept has the index it had before, queries find it, and size() is the number of keys in the table.", "quantifier": "for every table content, new size and interleaving of the reinsertion", "why_tests_cant": "The reinsertion is a parallel loop, and removal breaks probe sequences only when keys collide.", "anchors": ["include/zensim/container/HashTable.hpp: HashTable::resize, preserve, ResetHashTable, ReinsertHashTable, RemoveHashTableEntries"]}
{"id": "C63", "title": "BVH self-iteration reports every overlapping pair once", "statement": "Running self_iter_neighbors for every leaf of a BVH reports each unordered pair of different primitives with overlapping boxes exactly once, and nothing else.", "quantifier": "for every BVH and set of boxes", "why_tests_cant": "Leaf numbers follow the layout of the tree, so that which of the two leaves reports a pair depends on all boxes.", "anchors": ["include/zensim/container/Bvh.hpp: LBvhView::self_iter_neighbors"]}
{"id": "C64", "title": "Single-pass BVH construction yields a valid hierarchy", "statement": "buildRefit on three or more primitives never accesses an array out of bounds and produces a valid hierarchy with the merged boxes, as build does.", "quantifier": "for all codes", "why_tests_cant": "Needs inputs whose root split is not after the first leaf; an out-of-bounds read often goes unnoticed.", "anchors": ["include/zensim/container/Bvh.hpp: LBvh::buildRefit, _build_init_split_location, _build_build_topo_and_refit, _build_reorder_leaf_with_bv, _build_reorder_trunk_with_bv"]}
{"id": "C65", "title": "Grid coordinates and blocks are in one-to-one correspondence", "statement": "In an adaptive grid, on every level, the key and the tile offset of a coordinate identify its cell: equal key and offset exactly for coordinates in the same cell, every offset below the tile size occurs, and iCoord(key, offset) is the lowest corner of the cell. Keys of coarser levels and hierarchy offsets follow from finer keys. In a sparse grid decomposeCoord and iCoord are inverse to each other. No key equals the sentinel of the hash table.", "quantifier": "for every number of levels, level sizes and 32-bit coordinates, also negative ones", "why_tests_cant": "2^96 coordinates per layout, and errors show only at particular signs and block borders.", "anchors": ["include/zensim/geometry/AdaptiveGrid.hpp: AdaptiveGridImpl::coord_to_key, coord_to_hierarchy_offset, coord_to_tile_offset, Level, iCoord", "include/zensim/geometry/SparseGrid.hpp: SparseGrid::local_coord_to_offset, local_offset_to_coord, global_coord_to_local_offset, SparseGridView::decomposeCoord, iCoord"]}
{"id": "C66", "title": "Accessors of adaptive grids are transparent", "statement": "Every sequence of probeValue calls through one AdaptiveGridAccessor of an unchanged grid returns the same flags and values as probeValue on the grid itself, and a call whose block is remembered does not use the hash table.", "quantifier": "for every grid content, number of levels, number of cached levels and sequence of coordinates", "why_tests_cant": "The answer depends on the history of the accessor; wrong records show only for particular sequences.", "anchors": ["include/zensim/math/curve/InterpolationKernel.hpp: AdaptiveGridAccessor", "include/zensim/geometry/AdaptiveGrid.hpp: AdaptiveGridUnnamedView::probeValue, probeValueAndCache"]}
{"id": "C67", "title": "Reordering an adaptive grid keeps its values", "statement": "After AdaptiveGrid::reorder every probe, value and valueOr, whether it looks blocks up in the hash tables or follows child offsets, gives what probing through the tables gave before; the blocks reached along child offsets are those of the tables. reorder can be repeated.", "quantifier": "for every consistent grid, order of blocks, Morton code and schedule", "why_tests_cant": "Wrong offsets show only for particular block orders and after the child masks straddle words.", "anchors": ["include/zensim/geometry/AdaptiveGrid.hpp: AdaptiveGridImpl::reorder, Level::reorder", "include/zensim/container/Bht.hpp: bht::reorder", "include/zensim/container/Vector.hpp: Vector::reorder", "include/zensim/container/TileVector.hpp: TileVector::reorderTiles"]}
{"id": "C68", "title": "Completing the topology of an adaptive grid", "statement": "AdaptiveGrid::complementTopo creates exactly the missing ancestors of all blocks, makes child masks and child offsets right, so that probing along offsets and through tables agree; a grid whose blocks all have their parents keeps every value and active flag. New blocks do not change what is found at any coordinate outside finer blocks.", "quantifier": "for every grid, layout of levels, hash functions, schedule of the insertions and contents of fresh memory", "why_tests_cant": "Parents are inserted concurrently with repeated keys; only particular schedules and block sets give wrong masks.", "anchors": ["include/zensim/geometry/AdaptiveGrid.hpp: AdaptiveGridImpl::complementTopo, _update_topo_update_childmask", "include/zensim/container/Bht.hpp: bht::resize, BhtView::insert"]}
{"id": "C69", "title": "Restructuring an adaptive grid into another layout", "statement": "AdaptiveGrid::restructure gives a consistent grid with the layout and background asked for in which every coordinate active in the source is active with the same value, in all channels, and no other coordinate is active, whatever the cell sizes and block sizes of the two layouts.", "quantifier": "for every source grid, pair of layouts, hash functions, schedule of the insertions and contents of fresh memory", "why_tests_cant": "Which cells are lost depends on the pair of layouts and on which blocks happen to be neighbours in the tree; tests convert between a few fixed layouts.", "anchors": ["include/zensim/geometry/AdaptiveGrid.hpp: AdaptiveGridImpl::restructure, closest_child_level, complementTopo, probeValue"]}
{"id": "C70", "title": "Interpolation weights of grid nodes", "statement": "In exact arithmetic, linear_, quadratic_ and cubic_bspline_weights return, for any position, the values of the B-spline of degree 1, 2, 3 centred at each node of the stencil and its first and second derivatives, and the B-spline vanishes at all other nodes: the weights are non-negative, sum to one, reproduce the position, and their derivatives reproduce the derivatives of polynomials up to the degree; the delta weights satisfy the moment conditions of the discrete delta functions of width 2, 3, 4.", "quantifier": "for every position whose base node fits the integer type, every degree and order", "why_tests_cant": "Weights are piecewise polynomials with four branches and a floor; a wrong coefficient or a stencil shifted at half-integers passes sampled comparisons with a tolerance.", "anchors": ["include/zensim/math/curve/InterpolationKernel.hpp: linear_bspline_weights, quadratic_bspline_weights, cubic_bspline_weights, delta_2point_weights, delta_3point_weights, delta_4point_weights, base_node, bspline_weight"]}
{"id": "C71", "title": "Looking up values in sparse grids", "statement": "In a sparse grid with side length at least 2, valueOr returns the value of the cell of the block that contains the coordinate, and the default when there is no such block; cells of different coordinates are different; an accessor (one cached block) gives for every sequence of look-ups the answers the grid gives, found or background.", "quantifier": "for every number of dimensions, side length 2^b with 0<b<31, set of blocks, coordinates (32-bit) and sequence of look-ups through one accessor", "why_tests_cant": "The cache returns a stale block only for a sequence of look-ups that leaves and re-enters blocks, and negative coordinates must be rounded towards minus infinity.", "anchors": ["include/zensim/geometry/SparseGrid.hpp: decomposeCoord, valueOr, probeValue, probeValueAndCache", "include/zensim/math/curve/InterpolationKernel.hpp: GridAccessor"]}
{"id": "C72", "title": "Sampling grids", "statement": "In exact arithmetic, iSample of a sparse or adaptive grid at a position X is the sum over all nodes of their value times the product of the spline weights (also through an accessor, where it is the same number): it reproduces affine fields exactly, lies between the bounds of the values near X, and at a node with the linear kernel is the value of the node; staggered samples do this for fields stored at faces; minimum and maximum are those of the values stored near X.", "quantifier": "for every number of dimensions, position, kernel (linear, quadratic, cubic, three delta kernels), grid and channel", "why_tests_cant": "The sum runs over 2^d to 4^d nodes whose order, weights and offsets must agree, over block borders, negative coordinates and missing blocks.", "anchors": ["include/zensim/math/curve/InterpolationKernel.hpp: GridArena", "include/zensim/geometry/SparseGrid.hpp: iSample, iPack, iStaggeredSample, iStaggeredCellSample", "include/zensim/geometry/AdaptiveGrid.hpp: iSample"]}
{"id": "C73", "title": "Owners are optional values", "statement": "An Owner holds at most one object: after any sequence of constructions, assignments, moves, resets and destructions on any number of owners, isActive and get tell what an optional value would, every object is destroyed exactly once, no destroyed or missing object is used, and an operation that throws leaves the owners as they were.", "quantifier": "for every sequence of operations on any number of owners, with throwing constructors and assignments, for types with and without default constructor, assignment operators, trivial copies", "why_tests_cant": "Which special member functions the compiler declares, and the state after an exception or an assignment from the own object, show only for types with resources and in rare sequences.", "anchors": ["include/zensim/ZpcImplPattern.hpp: Owner, InplaceStorage"]}
{"id": "C74", "title": "Complex numbers and real roots", "statement": "The operators and functions of complex (arithmetic, comparison, norm, conj, abs, arg, polar, exp, log, log10, powers, square root, trigonometric and hyperbolic functions and their inverses) compute the functions of the complex numbers, with the principal values; get_smallest_positive_real_quad_root and get_smallest_positive_real_cubic_root return the smallest non-negative real root, or a negative number if there is none.", "quantifier": "for all complex numbers (exact arithmetic) and all coefficients and tolerances", "why_tests_cant": "Errors of the imaginary part do not show on real test data, and a wrong root is wrong only for some signs of the coefficients.", "anchors": ["include/zensim/math/Complex.hpp: complex", "include/zensim/math/MathUtils.h: complex functions, get_smallest_positive_real_quad_root, get_smallest_positive_real_cubic_root"]}
{"id": "C75", "title": "Small vectors and matrices", "statement": "The entries of vec occupy positions given by a bijection for every storage order; the algebra of VecInterface and Vec (sums, products of matrices and vectors, cross products, dyads, transposes, traces, affine maps, norms, extrema, normalization, orthogonal vectors), determinants of any size, inverses up to 4 by 4, and the column-major functions of MatrixUtils compute what their names say.", "quantifier": "for all extents, entries of any commutative ring (field, ordered field) and, for determinants, all sizes", "why_tests_cant": "A wrong sign or index in one entry shows only for matrices where that entry matters.", "anchors": ["include/zensim/math/VecInterface.hpp: indexer_impl::offset, VecInterface, dot, cross, deviatoric", "include/zensim/math/Vec.h: diag_mul, dyadic_prod, determinant, inverse, cofactor, cross_matrix, vectorize, row, col, trace, unpack_coord, linear_to_coord", "include/zensim/math/matrix/MatrixUtils.h"]}
{"id": "C76", "title": "Givens rotations, QR, singular values, polar decomposition", "statement": "GivensRotation builds rotations that zero one component and applies them to rows and columns; qr gives an orthogonal and an upper triangular factor for matrices of any size, gram_schmidt for invertible ones; upper_bidiagonalize and make_lambda_shape keep the product and reach the shape; qr_svd gives rotations U, V and ordered values with U diag(S) V^T equal to the matrix (2 by 2) or within the tolerance of it (3 by 3); polar_decomposition gives a rotation and a symmetric factor, and no rotation is closer.", "quantifier": "for all real matrices (exact arithmetic)", "why_tests_cant": "Sign and order conventions depend on the case taken among many; rotations with determinant -1 or unsorted values appear only for some sign patterns.", "anchors": ["include/zensim/math/matrix/Givens.hpp: GivensRotation, zero_chasing, upper_bidiagonalize, make_lambda_shape", "include/zensim/math/matrix/QRSVD.hpp: qr, gram_schmidt, polar_decomposition, qr_svd"]}
{"id": "C77", "title": "Eigenvalues of symmetric matrices and projection to positive semidefinite matrices", "statement": "eigen_decomposition of a symmetric matrix gives an orthogonal matrix of eigenvectors and the eigenvalues (2 by 2 and 3 by 3: in ascending order), for every size the iteration ends, and at the end the off-diagonal entries are below the tolerance; make_pd replaces a symmetric matrix by the nearest positive semidefinite one and keeps a matrix whose eigenvalues are not below the tolerance.", "quantifier": "for all real symmetric matrices, all sizes", "why_tests_cant": "Repeated and nearly equal eigenvalues take other branches; the iteration for larger matrices goes wrong only after a rotation moves the largest entry of a third row.", "anchors": ["include/zensim/math/matrix/Eigen.hpp: eigen_decomposition (2x2, 3x3, NxN), make_pd"]}
{"id": "C78", "title": "Elastic energies: the stress is the gradient of the energy, the tangent is the derivative of the stress", "statement": "For each elastic model the first Piola stress returned is the derivative of the energy returned with respect to the deformation gradient, the stress derivative returned is the derivative of that stress, the derivatives in terms of singular values and invariants are the derivatives, the projected tangents are positive semidefinite (and unchanged where no projection is needed), and the two forms of Lame parameters are inverse to each other.", "quantifier": "for all real deformation gradients in the domain of the model, all parameters, all directions", "why_tests_cant": "A wrong factor or a wrong limit for equal singular values gives a slower or unstable simulation and no error; tests at single matrices miss special values.", "anchors": ["include/zensim/physics/ConstitutiveModel.hpp: lame_parameters, IsotropicConstitutiveModelInterface, InvariantConstitutiveModelInterface, I_wrt_F", "include/zensim/physics/constitutive_models/NeoHookean.hpp", "include/zensim/physics/constitutive_models/FixedCorotated.h", "include/zensim/physics/constitutive_models/StvkWithHencky.hpp", "include/zensim/physics/constitutive_models/EquationOfState.hpp", "include/zensim/physics/constitutive_models/AnisotropicArap.hpp: do_psi, do_first_piola"]}
{"id": "C79", "title": "Distances of points, edges and triangles; barrier and mollifier of contact", "statement": "The squared distance functions return the least squared distance between the two shapes, their categories name parts of the shapes at which it is attained, the edge-triangle test is true exactly if they have a common point, the gradient functions return the partial derivatives of the distances, and the barrier (with first and second derivative) and the mollifier (with gradient) are continuously differentiable, of the right sign and with the right limits.", "quantifier": "for all real points, edges and triangles, all dimensions where the function is generic, all parameters", "why_tests_cant": "The regions of the closest point meet in sets of measure zero and the gradients are generated expressions of a hundred lines; a wrong branch or sign appears as penetration in a simulation.", "anchors": ["include/zensim/geometry/SpatialQuery.hpp: dist_pt_sqr, pt_category_and_dist2, dist_ee_sqr, ee_category_and_dist2, barrier, barrier_gradient, barrier_hessian", "include/zensim/geometry/Distance.hpp: dist2_pp, dist_grad_pp, pe_distance_type, dist2_pe, dist2_pe_unclassified, pt_distance_type, dist2_pt, dist2_pt_unclassified, ee_distance_type, dist2_ee, dist2_ee_unclassified, et_intersected, g_PE2D, g_PE3D, g_EE, g_PT, g_EECN2, cn2_ee, mollifier_ee, mollifier_grad_ee"]}
{"id": "C80", "title": "Conjugate gradient and conjugate residual solvers", "statement": "For a symmetric system that is positive definite on the free values, solve divides by no zero, changes no fixed value, needs at most as many iterations as there are free values, ends with a residual within the tolerance unless maxIters ended it, and after k iterations its result is the best one in the Krylov space of dimension k (energy for conjugate gradients, preconditioned residual for conjugate residuals); two calls with the same arguments do the same.", "quantifier": "for all dimensions, matrices, projections, preconditioners, right hand sides, starting values, tolerances and iteration limits", "why_tests_cant": "A solver with a wrong coefficient still converges on easy systems, only later; that each iterate is optimal is a statement about all vectors of a space.", "anchors": ["include/zensim/math/linear/ConjugateGradient.hpp: ConjugateGradient::solve, dotProduct", "include/zensim/math/linear/ConjugateResidual.hpp: ConjugateResidual::solve", "include/zensim/math/linear/LinearOperators.hpp: LinearCombineOp, DofCompwiseOp"]}
{"id": "C81", "title": "Rotations", "statement": "Every way to construct a Rotation gives an orthogonal matrix of determinant one that does what its arguments say: turns about the axis by the angle, is the product of the three turns of the convention, is the matrix of the unit quaternion (multiplicative, conjugation inverts), takes the direction of the first vector to that of the second; extractAxisRotation and extractAngles return arguments from which the constructor makes the rotation again; the product with an angular velocity is the derivative of the turning point.", "quantifier": "for all axes, angles, both units, both conventions, all rotations, unit quaternions and nonzero vectors", "why_tests_cant": "Sign and order errors cancel on symmetric inputs, and the cases of the extraction (half turns, locked angles, opposite vectors) are sets of measure zero.", "anchors": ["include/zensim/math/Rotation.hpp: Rotation, extractAxisRotation, extractAngles, quaternionMultiply, quaternionConjugateMultiply, quaternion2matrix, AngularVelocity", "include/zensim/math/VecInterface.hpp: orthogonal, cross"]}
{"id": "C82", "title": "Square root by Newton's iteration, logarithm quotients, prefix sums", "statement": "sqrtNewtonRaphson ends; for arguments not below its constant its result is at least the root, exceeds it by no more than the tolerance and by no more than the square of the tolerance over twice the root; log_1px_over_x, diff_log_over_diff and diff_interlock_log_over_diff are exact outside the series interval, of fourth order inside it and continuous at equal arguments; the prefix sums and suffix products cover exactly the arguments their name says.", "quantifier": "for all arguments, tolerances, numbers of parameters and indices", "why_tests_cant": "Bounds on the error of an iteration are statements about a real interval; its cost grows with the argument.", "anchors": ["include/zensim/math/MathUtils.h: sqrtNewtonRaphson", "include/zensim/ZpcMathUtils.hpp: log_1px_over_x, diff_log_over_diff, diff_interlock_log_over_diff, incl_prefix_sum, excl_prefix_sum, excl_suffix_mul"]}
{"id": "C83", "title": "Smallest positive roots of quadratic and cubic polynomials", "statement": "get_smallest_positive_real_quad_root and get_smallest_positive_real_cubic_root return the smallest positive real root, or a negative number if there is none; the three numbers the cubic function computes are the roots with their multiplicities for every choice of branches of the complex roots.", "quantifier": "for all coefficients and tolerances", "why_tests_cant": "The failing polynomials have double or triple roots, a root zero, or a sign pattern that a test on normalised coefficients does not contain.", "anchors": ["include/zensim/math/MathUtils.h: get_smallest_positive_real_quad_root, get_smallest_positive_real_cubic_root"]}
{"id": "C84", "title": "Plastic projections of the singular values", "statement": "The projections return an admissible state and leave admissible states alone. Snow: the nearest values within the limits, stiffer after compression, softer after stretching. Capped von Mises: the nearest admissible state in logarithmic strain. Drucker-Prager: a state in the cone, volume and direction of the deviator kept under compression. Von Mises: trace of the squares kept, volume never reduced, within the yield surface and idempotent. Cam-Clay: exactly the tip pressure beyond the tips with the volume split kept, otherwise on the ellipse for the trial pressure, roots only of positive numbers, hardening with the sign given by the side of the centre.", "quantifier": "for all positive singular values, dimensions and material parameters with the stated signs", "why_tests_cant": "Optimality among all admissible states and membership in a cone or ellipse range over continuous states and parameters.", "anchors": ["include/zensim/physics/plasticity_models/SnowPlasticity.hpp: SnowPlasticity::do_project_sigma", "include/zensim/physics/plasticity_models/VonMisesCapped.hpp: VonMisesCapped::do_project_sigma, project_strain", "include/zensim/physics/plasticity_models/NonAssociativeDruckerPrager.hpp: NonAssociativeDruckerPrager::do_project_sigma", "include/zensim/physics/plasticity_models/NonAssociativeVonMises.hpp: NonAssociativeVonMises::do_project_sigma", "include/zensim/physics/plasticity_models/NonAssociativeCamClay.hpp: NonAssociativeCamClay::do_project_sigma"]}
{"id": "C85", "title": "Smoothed friction and tangent spaces of contacts", "statement": "The friction factor is twice the derivative of the friction potential by the squared displacement, everywhere including zero and the threshold, so factor times displacement is the gradient; the force grows from zero and is exactly one from the threshold on, and the potential exceeds the length by at most a third of the threshold. For the four kinds of contact the closest parameters minimise the distance on the lines and the plane, the basis is orthonormal and at a right angle to the difference of the closest points, and the map of tangential forces to the vertices and the matrix TT are the adjoint of the relative displacement.", "quantifier": "for all positive thresholds, displacements, points in general position, bases and parameters", "why_tests_cant": "Differentiability at the seams, optimality and adjointness quantify over continuous positions.", "anchors": ["include/zensim/geometry/Friction.hpp: f0_SF, f1_SF_div_rel_dx_norm, f2_SF_term", "include/zensim/geometry/Friction.hpp: point_point_tangent_basis, point_point_rel_dx, point_point_rel_dx_tan_to_mesh, point_point_TT", "include/zensim/geometry/Friction.hpp: point_edge_closest_point, point_edge_tangent_basis, point_edge_rel_dx, point_edge_rel_dx_tan_to_mesh, point_edge_TT", "include/zensim/geometry/Friction.hpp: point_triangle_closest_point, point_triangle_tangent_basis, point_triangle_rel_dx, point_triangle_rel_dx_tan_to_mesh, point_triangle_TT", "include/zensim/geometry/Friction.hpp: edge_edge_closest_point, edge_edge_tangent_basis, edge_edge_rel_dx, edge_edge_rel_dx_tan_to_mesh, edge_edge_TT"]}
{"id": "C86", "title": "Affine transforms as matrices and their decomposition", "statement": "Acting on row vectors extended by one, products of affine matrices are compositions from left to right. A translation adds its vector, a scale multiplies the components, a rotation acts as its matrix does on columns; the members named pre apply to the argument and those named post to the result, and scaling in place is the product with the matrix of the scale. The decomposition into translation, rotation and symmetric part multiplies back to the matrix exactly when it is affine, in the convention for columns and in reverse order for rows; the variant with output arguments describes the same map. In two dimensions the rotation is the one closest to the linear part.", "quantifier": "for all dimensions, matrices, vectors, points and polar decompositions that multiply back", "why_tests_cant": "Composition laws hold for all matrices of all dimensions.", "anchors": ["include/zensim/math/matrix/Transform.hpp: Transform::setToTranslation, preTranslate, postTranslate", "include/zensim/math/matrix/Transform.hpp: Transform::setToScale, preScale, postScale", "include/zensim/math/matrix/Transform.hpp: Transform::setToRotation, preRotate, postRotate", "include/zensim/math/matrix/Transform.hpp: decompose_transform"]}
{"id": "C87", "title": "Angle between two triangles with a common edge", "statement": "Over the real numbers: the angle is the only one in (-pi, pi] by which turning the normal of the first triangle about the common edge gives the normal of the second. It is zero for equal normals and pi for triangles folded onto each other, the same when read from the other end, the opposite when the outer points are exchanged, and unchanged by rigid motions. The gradient is the derivative in every direction unless the triangles are folded, and is a system of forces without sum and without moment. The Hessian is the derivative of the gradient in every direction and is symmetric.", "quantifier": "for all triangles with an area and all directions of motion of the four points", "why_tests_cant": "Derivatives in all directions at all positions are limits over a continuum; a wrong term in one of 144 entries shows only for special positions.", "anchors": ["include/zensim/math/DihedralAngle.hpp: dihedral_angle", "include/zensim/math/DihedralAngle.hpp: dihedral_angle_gradient", "include/zensim/math/DihedralAngle.hpp: dihedral_angle_hessian"]}
{"id": "C88", "title": "Dense grids and Poisson disk sampling in the plane", "statement": "A dense grid maps indices within its dimensions to different cells below the product of the dimensions and reads what was written last. Sampling reads and writes only inside its vectors, returns points that are feasible, inside the background grid and pairwise at least the minimum distance apart (in periodic mode also across the boundary), stops for all random numbers after at most twice as many rounds as there are cells, and gives a sample up only after a whole round of rejected attempts around it. checkDistance says yes exactly for points in the grid that are away from every sample.", "quantifier": "for all boxes, distances, feasibility functions and random numbers", "why_tests_cant": "Wrong neighbour windows or a wrong wrap miss only rare pairs of points; whether the loop stops depends on the random numbers; an allocation that is too small is undefined behaviour that may go unnoticed.", "anchors": ["include/zensim/container/DenseGrid.hpp: excl_suffix_prod", "include/zensim/container/DenseGrid.hpp: DenseGrid::offset", "include/zensim/container/DenseGrid.hpp: DenseGrid::DenseGrid", "include/zensim/container/DenseGrid.hpp: DenseGrid::operator()", "include/zensim/geometry/PoissonDisk.hpp: PoissonDisk::sample", "include/zensim/geometry/PoissonDisk.hpp: PoissonDisk::checkDistance", "include/zensim/geometry/PoissonDisk.hpp: PoissonDisk::worldToIndexSpace", "include/zensim/geometry/PoissonDisk.hpp: PoissonDisk::generateRandomPointAroundAnnulus"]}
{"id": "C89", "title": "Transfers between particles and grid", "statement": "P2GTransfer onto any set of nodes that contains those of the particles adds exactly the mass, the momentum and the angular momentum of the particles (with that of their affine fields), no net force and, for a symmetric stress, no net torque; its work is that of the stress on the gradient that G2PTransfer computes; the order of the particles does not matter. G2PTransfer reproduces affine velocity fields exactly and advances position, volume ratio and deformation gradient with them. Transfer, ComputeGridBlockVelocity and transfer back change momentum by gravity only, keep angular momentum without gravity and never increase kinetic energy. GridAngularMomentum reports the momenta of the particles, and the stresses of the equation of state and of the corotated model are symmetric.", "quantifier": "for all particles with masses that are not negative, all cell sizes, time steps and stresses", "why_tests_cant": "Conservation holds up to rounding in each run, so that a small wrong factor looks like rounding or like numerical damping; tests see single scenes and not all positions within a cell.", "anchors": ["include/zensim/simulation/transfer/P2G.hpp: P2GTransfer::operator()", "include/zensim/simulation/transfer/G2P.hpp: G2PTransfer::operator()", "include/zensim/simulation/Utils.hpp: LocalArena", "include/zensim/simulation/grid/GridOp.hpp: ComputeGridBlockVelocity", "include/zensim/simulation/grid/GridOp.hpp: GridAngularMomentum", "include/zensim/simulation/grid/GridOp.hpp: CleanGridBlocks", "include/zensim/physics/ConstitutiveModel_Vol_dP.hpp: compute_stress_fixedcorotated", "include/zensim/math/matrix/MatrixUtils.h: matrixMatrixMultiplication3d"]}
{"id": "C90", "title": "Matrix helpers on arrays", "statement": "The functions on arrays of four and nine numbers compute, with the matrices stored by columns, the products with and without transpose, with diagonal matrices and with vectors, the transpose, the trace, the determinant, the adjugate or cofactors and the deviatoric part; the products with diagonal matrices may write to their own input.", "quantifier": "for all matrices over a commutative ring", "why_tests_cant": "One wrong index among eighty-one products shows only for matrices without symmetry, and functions that are not called are not tested.", "anchors": ["include/zensim/math/matrix/MatrixUtils.h: matmul_mat_diag_matT_3D", "include/zensim/math/matrix/MatrixUtils.h: matrixMatrixMultiplication3d", "include/zensim/math/matrix/MatrixUtils.h: matrixTransposeMatrixMultiplication3d", "include/zensim/math/matrix/MatrixUtils.h: matrixMatrixTransposeMultiplication3d", "include/zensim/math/matrix/MatrixUtils.h: matrixCofactor2d", "include/zensim/math/matrix/MatrixUtils.h: matrixCofactor3d", "include/zensim/math/matrix/MatrixUtils.h: matrixDeterminant3d", "include/zensim/math/matrix/MatrixUtils.h: vec_crossMul_vec_3D", "include/zensim/math/matrix/MatrixUtils.h: matrixDeviatoric3d"]}
{"id": "C91", "title": "Stresses with plasticity", "statement": "compute_stress_vonmisesfixedcorotated, compute_stress_sand and compute_stress_nacc return volume times the Kirchhoff stress of their model for the singular values after the plastic projection, a symmetric matrix. After the projection the von Mises stress is on the yield surface and without it inside; sand ends inside of the cone, keeps its volume or moves to the tip, and states inside of the cone are kept; Cam-Clay states beyond the end points of the yield surface become pressures of that size, others are projected to the surface.", "quantifier": "for all deformation gradients with their decomposition and all parameters", "why_tests_cant": "Stresses off the yield surface by a factor look plausible; single states tell nothing about the branches at the end points and at the tip.", "anchors": ["include/zensim/physics/ConstitutiveModel_Vol_dP.hpp: compute_stress_vonmisesfixedcorotated", "include/zensim/physics/ConstitutiveModel_Vol_dP.hpp: compute_stress_sand", "include/zensim/physics/ConstitutiveModel_Vol_dP.hpp: compute_stress_nacc"]}
{"id": "C92", "title": "Analytic shapes are signed distances", "statement": "getSignedDistance of plane (unit normal), cuboid (any dimension), sphere and cylinder is the signed distance to the half-space, box, ball or cylinder: outside it is the distance to the nearest point, inside its negative is the radius of the largest ball in the set. distance(box, point) is the same number. getNormal of the sphere is the gradient, a unit vector. getBoundingBox of cuboid, sphere and cylinder is the smallest box around the set; getVert gives its corners, where linear functions are largest; getUniformCoord is the clamped relative position.", "quantifier": "for all shapes with nonnegative sizes and all points", "why_tests_cant": "Errors near edges, on the axis or in the corner regions show only for points of these regions, and a plausible sign hides them.", "anchors": ["include/zensim/geometry/AnalyticLevelSet.h: AnalyticLevelSet::do_getSignedDistance", "include/zensim/geometry/AnalyticLevelSet.h: AnalyticLevelSet::do_getBoundingBox", "include/zensim/geometry/AnalyticLevelSet.h: distance", "include/zensim/geometry/BoundingVolumeInterface.hpp: getUniformCoord"]}
{"id": "C93", "title": "Tests of bounding volumes and rays", "statement": "overlaps says yes exactly when two boxes, two spheres, or a point and a box or sphere have a common point. merge and get_bounding_box give the smallest box. pt_ccd_broadphase and ee_ccd_broadphase never reject a point-triangle or edge-edge pair that comes within the distance during the time, and say yes exactly when the boxes of the paths are that near. ray_tri_intersect returns the parameter exactly when the line crosses the triangle up to the tolerance. ray_box_intersect says yes exactly when the ray meets the box.", "quantifier": "for all volumes that are not empty, all motions and all rays", "why_tests_cant": "A broad phase that misses rare contacts makes objects pass through each other; rays parallel to faces are a set of measure zero for random tests.", "anchors": ["include/zensim/geometry/AnalyticLevelSet.h: overlaps", "include/zensim/geometry/AnalyticLevelSet.h: merge", "include/zensim/geometry/AnalyticLevelSet.h: pt_ccd_broadphase", "include/zensim/geometry/AnalyticLevelSet.h: ee_ccd_broadphase", "include/zensim/geometry/AnalyticLevelSet.h: ray_tri_intersect", "include/zensim/geometry/AnalyticLevelSet.h: ray_box_intersect", "include/zensim/geometry/BoundingVolumeInterface.hpp: get_bounding_box"]}
{"id": "C94", "title": "Colliders", "statement": "queryInside holds exactly for the places s R X + b of material points with negative distance. getVelocity is the time derivative of the place of the material point there, for every motion with the stored derivatives. resolveCollision and its variants leave everything unchanged away from the object and return false; inside they return true and a sticky contact takes the velocity of the object, a slipping one removes exactly the normal part of the relative velocity, a separating one does so only when approaching. Resolving twice is resolving once, the relative speed never grows, and the variants agree.", "quantifier": "for all level sets, placements, velocities and erosions", "why_tests_cant": "A wrong sign in one of the contact kinds or a frame that is not rotated back shows only for moving, rotated and scaled objects.", "anchors": ["include/zensim/geometry/Collider.h: Collider::queryInside", "include/zensim/geometry/Collider.h: Collider::getVelocity", "include/zensim/geometry/Collider.h: Collider::getNormal", "include/zensim/geometry/Collider.h: Collider::resolveCollision", "include/zensim/geometry/Collider.h: Collider::resolveCollisionWithNormal", "include/zensim/math/Rotation.hpp: AngularVelocity::cross"]}
{"id": "C95", "title": "Sorted bounding volumes answer neighbour queries", "statement": "build and refit of LBvs store every box exactly once, ordered by its lower end along the axis, and read nothing outside of the arrays; refit with another number of boxes throws. Without a valid axis, build takes the first axis along which the boxes reach farthest. locate returns the last position whose lower end is not above the value. iter_neighbors calls the function exactly once for exactly the boxes that touch the given one, and self_iter_neighbors over all nodes reports every touching pair once.", "quantifier": "for all lists of boxes (any number and dimension), all axes, all queries and every sort that permutes and orders", "why_tests_cant": "A binary search that is off by one or a scan that stops early loses contacts only for boxes that begin exactly at the end of the query.", "anchors": ["include/zensim/container/Bvs.hpp: LBvs::build", "include/zensim/container/Bvs.hpp: LBvs::refit", "include/zensim/container/Bvs.hpp: LBvs::getBox", "include/zensim/container/Bvs.hpp: LBvsView::locate", "include/zensim/container/Bvs.hpp: LBvsView::iter_neighbors", "include/zensim/container/Bvs.hpp: LBvsView::self_iter_neighbors"]}
{"id": "C96", "title": "Fronts keep every pushed pair and reorder sorts them by node", "statement": "push_back counts every call, also those for which there is no room, and stores the others after what was there; after reserve with that count and setCounter(0), as many calls as were counted are all stored. reorder permutes the stored pairs so that node ids ascend, the pairs of one node in the order in which the iterations ran, and touches nothing outside of its arrays. reserve makes room and keeps the stored pairs; assign changes one pair and nothing beyond the capacity.", "quantifier": "for all fronts, all numbers of nodes and pairs, and every order of the concurrent iterations", "why_tests_cant": "A pair is lost only if the front was pushed to beyond its size but within its capacity and is then enlarged, and reorder fails only after an overflow.", "anchors": ["include/zensim/container/Bvtt.hpp: BvttFront::reserve", "include/zensim/container/Bvtt.hpp: BvttFront::reorder", "include/zensim/container/Bvtt.hpp: BvttFrontView::push_back", "include/zensim/container/Bvtt.hpp: BvttFrontView::assign", "include/zensim/container/Bvtt.hpp: BvttFrontView::prim", "include/zensim/container/Bvtt.hpp: BvttFrontView::node"]}
{"id": "C97", "title": "Buckets of particles hold every particle in the bucket of its cell", "statement": "ComputeSparsity leaves every block that contains a particle in the table exactly once, and nothing else besides what was there; EnlargeSparsity adds exactly the keys in the box around the keys. index_buckets_for_particles never leaves its arrays and gives one bucket per occupied cell; the bucket of a cell contains exactly its particles, all buckets together list every particle once, and the last offset is the number of particles. bucketNo(bucketCoord(x)) finds the bucket of a particle at x, and the search of the 27 surrounding buckets calls the function exactly once for exactly the other particles in range.", "quantifier": "for all positions, numbers of particles, dimensions, cell widths, block lengths, and all orders of the concurrent iterations", "why_tests_cant": "A cell off by one for negative coordinates or for particles on a face, or a scan whose last element is wrong, loses only single neighbours.", "anchors": ["include/zensim/simulation/sparsity/SparsityOp.hpp: ComputeSparsity::operator()", "include/zensim/simulation/sparsity/SparsityOp.hpp: EnlargeSparsity::operator()", "include/zensim/simulation/sparsity/SparsityOp.hpp: SpatiallyCount::operator()", "include/zensim/simulation/sparsity/SparsityOp.hpp: SpatiallyDistribute::operator()", "include/zensim/simulation/particle/Query.tpp: index_buckets_for_particles", "include/zensim/container/IndexBuckets.hpp: IndexBucketsView::bucketCoord", "include/zensim/container/IndexBuckets.hpp: IndexBucketsView::bucketNo", "include/zensim/cuda/simulation/wrangler/ParticleWrangler.cpp: zpc_particle_neighbor_wrangler_kernel"]}
{"id": "C98", "title": "Every attribute of particles has one element per particle", "statement": "New particles, addAttr and append keep every attribute as long as the positions: addAttr keeps an attribute of the requested kind and otherwise makes one with an element for every particle, leaving the others as they are; append concatenates every attribute, and refuses attributes of one name and two kinds. retrievePositions returns the positions; retrieveStressMagnitude returns the determinants of the deformation gradients, or the changes of volume if there are only these, or zeros.", "quantifier": "for all numbers of particles, sets of attributes and values", "why_tests_cant": "A missing or short attribute shows only when a later kernel reads beyond its end.", "anchors": ["include/zensim/geometry/Structurefree.hpp: Particles::Particles", "include/zensim/geometry/Structurefree.hpp: Particles::addAttr", "include/zensim/geometry/Structurefree.hpp: Particles::append", "include/zensim/geometry/Structurefree.hpp: Particles::hasAttr", "include/zensim/geometry/Structurefree.hpp: Particles::retrievePositions", "include/zensim/geometry/Structurefree.hpp: Particles::retrieveStressMagnitude"]}
{"id": "C99", "title": "Shrinking and growing a sparse level set keeps exactly the right blocks", "statement": "mark_level_set marks exactly the cells with a distance below the background or another channel away from zero. refit_level_set_domain keeps exactly the blocks with a marked cell, in their order, with their channels, and queries find exactly these. extend_level_set_domain adds exactly the blocks within the given number of layers of an old block, keeps the old blocks and their indices, and fills new blocks with zeros and a distance of background plus one cell.", "quantifier": "for all level sets, thresholds, numbers of layers and orders of the parallel loops", "why_tests_cant": "The set of blocks depends on the order in which threads insert, and a wrong block shows only as a value read at a distance.", "anchors": ["include/zensim/geometry/LevelSetUtils.tpp: mark_level_set", "include/zensim/geometry/LevelSetUtils.tpp: refit_level_set_domain", "include/zensim/geometry/LevelSetUtils.tpp: extend_level_set_domain(pol, ls, nlayers)"]}
{"id": "C100", "title": "The flood fill of a level set spreads distances by the upwind scheme", "statement": "A step of flood_fill_levelset makes a seed of exactly the cells without a distance next to an inner cell, within the room for seeds, and gives a seed the distance that solves the first order upwind scheme with the smallest distances of its neighbours along the axes, with the sign of a closest neighbour.", "quantifier": "for all distances of the neighbours, cell sizes, dimensions and sets of cells", "why_tests_cant": "The error of a wrong scheme is of the size of a cell and grows slowly; too many seeds overwrite memory only for fragmented masks.", "anchors": ["include/zensim/geometry/LevelSetUtils.hpp: MarkInteriorTag::operator()", "include/zensim/geometry/LevelSetUtils.hpp: ComputeTaggedSDF::operator()", "include/zensim/geometry/LevelSetUtils.tpp: flood_fill_levelset"]}
{"id": "C101", "title": "The PCG generator has full period and uniform outputs", "statement": "From every state and with every increment, PCG returns to its state after exactly 2^64 calls, passes through every state once, and within these calls returns every 32-bit number exactly 2^32 times. Each output is the XSH-RR output of the state. call_random(i) is the output after i steps of the generator seeded with the time, and differs for different times.", "quantifier": "for all states, increments, outputs, times and numbers of steps", "why_tests_cant": "A period of 2^64 cannot be run through; a wrong shift, rotation or multiplier still gives numbers that look random.", "anchors": ["include/zensim/math/probability/Random.hpp: PCG::pcg32_random_r", "include/zensim/math/probability/Random.hpp: PCG::operator()", "include/zensim/math/probability/Random.hpp: seed", "include/zensim/math/probability/Random.hpp: call_random"]}
{"id": "C102", "title": "Fields and tensors with several indices address each element once", "statement": "A DenseField of a shape has one element per tuple of indices; reading at all tuples in dictionary order reads the memory in order, writing at a tuple changes that element only, fewer indices give the start of a contiguous block. index_to_coord and the offset undo each other. For a tensor, t[i][j]...[k] is t(i,j,...,k) also through partial views, val goes through the elements in dictionary order whatever the storage order, and different indices are different positions within the storage.", "quantifier": "for all shapes, numbers of dimensions, tuples of indices, storage orders, offsets and contents", "why_tests_cant": "Tests use two or three dimensions with equal extents, where a wrong factor or a swapped index can go unnoticed.", "anchors": ["include/zensim/container/DenseField.hpp: DenseField, linearOffset, operator(), reshape", "include/zensim/ZpcTuple.hpp: index_to_coord", "include/zensim/math/Tensor.hpp: tensor_view, tensor_impl", "include/zensim/ZpcFunctional.hpp: value_seq::scan"]}
{"id": "C103", "title": "Samplers return points of their domain with the right distribution", "statement": "rand_p stops for every uniform number below one, and its results have the Poisson distribution; PDF is the Poisson distribution and the normal density. randInBox, randomBarycentricWeights and randInBall return points of the box, weights that are not negative with sum one, and points of the ball; each is the first candidate accepted, and all points (up to the excluded ends) occur. randRotation returns rotations; in the plane all of them occur.", "quantifier": "for all parameters, streams of uniform numbers, dimensions, centers, radii and positions in the stream", "why_tests_cant": "Tests draw some numbers; they do not show the distribution, nor the parameters for which the loop does not end.", "anchors": ["include/zensim/math/probability/Probability.cpp: PDF, anti_normal_PDF, rand_p, rand_normal, rand_anti_normal", "include/zensim/math/RandomNumber.hpp: randInBox, randomBarycentricWeights, randInBall, randRotation"]}
{"id": "C104", "title": "Iterators and accessors over tiled memory reach the cells of their channel", "statement": "An aosoa_iterator at element i of tiled memory points to the cells of element i in the channels from its channel on, in the layout of TileVector, or to the components of the i-th structure; advancing it by the distance to another iterator of the range reaches that iterator, and iterators of a range are equal exactly when they point to the same element. AccessorAoSoA gives the address of the cell of its channel. Iterators of TileVector over values smaller than the elements stay within the row of the channel in the tile, and those of different elements or segments have no byte in common.", "quantifier": "for all tile sizes that are powers of two, channels, elements, extents, element and value sizes", "why_tests_cant": "Tests use small containers and elements of four bytes, where offsets do not wrap and sizes are powers of two.", "anchors": ["include/zensim/py_interop/GenericIterator.hpp: aosoa_iterator", "include/zensim/cuda/simulation/wrangler/Wrangler.hpp: AccessorAoSoA", "include/zensim/container/TileVector.hpp: iterator_impl (smaller values)"]}
{"id": "C105", "title": "Views of degrees of freedom read what was written, as scalars and as vectors", "statement": "Through a DofView a scalar that was set is read back and all other scalars keep their values; the vector at i consists of the scalars from i * dim on; a vector that was set is read back, the other vectors keep their values and no other cell changes. Iterating passes each scalar of each element exactly once, in the order of the elements.", "quantifier": "for all containers of scalars or vectors, with or without channels, all dimensions, sizes, indices and contents", "why_tests_cant": "Tests use one kind of container; the cases of the view are chosen at compile time and some are wrong.", "anchors": ["include/zensim/types/View.h: dof_traits, DofView"]}
{"id": "C106", "title": "Normals of a mesh have the direction of the sum of the normals around a vertex", "statement": "compute_mesh_normal gives each vertex the direction of the sum of the normals of its triangles, weighted by area, with the length of the given scale, in whatever order the parallel additions happen; where all triangles at a vertex lie in a plane and are turned the same way it is the normal of the plane. Where vertex normals are given it gives these. It writes only the normals it was given room for.", "quantifier": "for all meshes, scales, positions, and orders of the parallel operations", "why_tests_cant": "Tests look at a few meshes in which every vertex has a triangle; the order of the atomic additions is not under their control.", "anchors": ["include/zensim/geometry/Mesh.cpp: compute_mesh_normal_impl, compute_mesh_normal"]}
{"id": "C107", "title": "Mesh files that were written are read back", "statement": "Reading a VTK file that write_tet_mesh_vtk wrote appends exactly the points and tetrahedra that were written, with the indices of the new points, whatever the mesh held before. An OBJ file that write_tri_mesh_obj wrote describes the vertices and triangles that were written. load_obj appends the vertices and triangles of the file and gives each vertex its normal; the corners of its triangles are those of the file.", "quantifier": "for all meshes, sizes, and ways to print coordinates as words that can be read back", "why_tests_cant": "Tests write a few meshes; a file is a text of any length whose words could be mistaken for those of the format.", "anchors": ["include/zensim/io/MeshIO.hpp: read_tet_mesh_vtk, write_tet_mesh_vtk, write_tri_mesh_obj", "include/zensim/io/MeshIO.cpp: load_obj"]}
{"id": "C108", "title": "A copyable pointer behaves as the value it owns", "statement": "In any program that creates, copies, moves, swaps, resets, releases and writes through copyable_ptr variables, every variable reads as a plain value that may be absent would: copies are deep, writes through one variable are never seen through another, self-assignment keeps the value. No object is deleted twice, deleted early or leaked, and released objects stay with the caller. Copying a null pointer gives a null pointer.", "quantifier": "for all programs, numbers of variables and values", "why_tests_cant": "Sharing shows only in particular sequences of copies and writes, and leaks and second deletions show in no value.", "anchors": ["include/zensim/types/Pointers.hpp: copyable_ptr"]}
{"id": "C109", "title": "Geometric predicates for rays, segments, triangles and tetrahedra are exact", "statement": "is_triangle_degenerated holds exactly for three points on one line. point_on_segment holds exactly for points of the segment. point_on_ray, ray_segment_intersection, point_inter_triangle and ray_triangle_intersection return the codes of their comments: whether the ray starts on, meets the interior of, meets the border of, or misses the segment or the triangle. phi vanishes exactly on the bilinear surface of its corners, and in their tetrahedron exactly on the patch. is_point_inside_tet holds exactly in the open tetrahedron.", "quantifier": "for all points with rational coordinates, both orientations and degenerate inputs", "why_tests_cant": "The predicates decide about sets of measure zero (lines, edges, corners), which random tests never hit; the results must be right there.", "anchors": ["include/zensim/geometry/Geometry.hpp: orient2d, orient3d, is_triangle_degenerated, prism::isTriangleDegenerated, point_on_ray, colinear_point_on_segment, point_on_segment, ray_segment_intersection, point_inter_triangle, ray_triangle_intersection", "include/zensim/geometry/Geometry.hpp: func_g, phi, get_tet_phi, bilinear::bilinear, is_point_inside_tet"]}
{"id": "C110", "title": "Exact collision tests of moving vertices, faces and edges report exactly the contacts", "statement": "vertexFaceCCD returns true exactly if, with all points moving on straight lines from their first to their second positions, there is a time at which the vertex is on the face; edgeEdgeCCD returns true exactly if there is a time at which the edges have a common point. In particular the test with bounding boxes rejects no contact; a contact at the start, at the end, or with an edge is not lost; the answer does not depend on the points and directions that are drawn; bilinear_degeneration tells a plane patch from the two folded ones.", "quantifier": "for all positions with rational coordinates and all sequences of drawn directions", "why_tests_cant": "A wrong answer needs a ray that goes exactly through an edge of a patch, and a contact that is missed looks like none; random positions have no such ray.", "anchors": ["include/zensim/geometry/Geometry.hpp: vertexFaceCCD, edgeEdgeCCD, shoot_origin_ray_prism, shoot_origin_ray_hex, point_inside_prism, point_inside_hex, ray_triangle_parity", "include/zensim/geometry/Geometry.hpp: ray_bilinear_parity, ray_degenerated_bilinear_parity, bilinear_degeneration, ray_shoot_correct_pair, int_ray_XOR, prism, hex"]}
{"id": "C111", "title": "Scenes become simulators with every set of particles in its group, with its model and a stable time step", "statement": "Every set of particles that was added to the builders of any number of scenes is in the simulator once, in the memory and with the constitutive model of the next commit, with the attributes that this model needs (mass, deformation gradient or volume, logJp for models with plasticity). The simulator has all boundaries of all scenes. There is one group per memory; each set of particles is in exactly one group, that of its memory, with the index of its own model, and the particles of a group are counted. In the evaluated time step no pressure wave of any material goes further than cfl cells.", "quantifier": "for all sequences of calls on all builders of all scenes, all places, all parameters of materials", "why_tests_cant": "A missing attribute shows up only in the kernels of one material, lost boundaries only with two scenes, and a time step that is too large only in an unstable simulation.", "anchors": ["include/zensim/simulation/init/Scene.cpp: BuilderForSceneParticle::commit, setConstitutiveModel", "include/zensim/simulation/init/Scene.hpp: BuilderForSceneParticle, SETUP_CONSTITUTIVE_PARAMETER", "include/zensim/simulation/mpm/Simulator.cpp: BuilderForMPMSimulator::addScene, operator MPMSimulator", "include/zensim/physics/SoundSpeedCfl.hpp: evaluate_soundspeed_linear_elasticity, evaluate_timestep_linear_elasticity", "include/zensim/physics/ConstitutiveModel.hpp: constitutive_model_e, ConstitutiveModelConfig"]}
{"id": "C112", "title": "A visitor of several variants is called once, with the alternatives they hold", "statement": "Calling a VariantTaskExecutor with any number of variants calls its visitor exactly once, with the alternatives that the variants hold, if it can be called with them, and never with other alternatives; otherwise it is not called.", "quantifier": "for all numbers of variants and alternatives, all alternatives held, all visitors", "why_tests_cant": "The number of combinations is the product of the numbers of alternatives; a traversal that leaves out a combination or stops early fails for some of them only.", "anchors": ["include/zensim/types/Polymorphism.h: VariantTaskExecutor::traverse, VariantTaskExecutor::operator()"]}
{"id": "C113", "title": "Views of tiled vectors in compiled kernels reach the cells of the layout", "statement": "A TileVectorViewLite or TileVectorNamedViewLite of a tiled vector reads, by channel and element, by channel, tile and place in the tile, through a view of one tile, by property name, or as pack or tuple of consecutive channels, exactly the value of that channel and element; different names, channels and elements are different cells; hasProperty holds exactly for the names of the properties.", "quantifier": "for all numbers of tiles and channels, all tile lengths, all lists of properties, all channels and elements", "why_tests_cant": "A wrong stride agrees with the right one for the first tile, for one channel, or for tiles of one element; tests with small vectors stay within one tile.", "anchors": ["include/zensim/py_interop/TileVectorView.hpp: TileVectorViewLite::operator(), tile, pack, tuple; TileVectorNamedViewLite::propertyIndex, hasProperty, operator(), tile, pack, tuple"]}
{"id": "C114", "title": "Vector functions on pointers write the vector they are named after, and only that", "statement": "math::orthogonalVector writes a vector orthogonal to its input whose squared length is between two thirds of that of the input and that of the input (so it is zero only for zero), math::cross writes the vector product, math::vectorCopy the scaled vector, and none of them changes other memory; math::sgn is the sign with numbers up to 1e-10 as zero.", "quantifier": "for all vectors and all places in memory", "why_tests_cant": "An orthogonal vector is chosen by cases on the size of the components; a wrong case fails for some orders of the components only, and the lower bound on the length is not visible from single results.", "anchors": ["include/zensim/math/matrix/Utility.h: sgn, orthogonalVector, cross, vectorCopy"]}
{"id": "C115", "title": "The name of a type is the part of the function name between its brackets", "statement": "detail::locate_char_in_str_helper returns the position of the first left bracket and of the right bracket that closes it, with any nesting between them, or the end of the string if none closes it; get_type returns exactly the text of the type, both with that search and with the fixed starts for gcc and clang.", "quantifier": "for all strings, types and depths of nesting", "why_tests_cant": "Names with nested template arguments to any depth; a miscount shows only for certain nestings, and reads behind the end of a string often go unnoticed.", "anchors": ["include/zensim/ZpcReflection.hpp: detail::locate_char_in_str_helper, get_type"]}
{"id": "C116", "title": "The hash table view for compiled kernels gives each key one index", "statement": "After any sequence of insertions through BhtViewLite by one thread, insert of a key that query finds returns the sentinel; any other key gets the value of the counter as its index, or is refused exactly if its three buckets have one free slot each; query then returns that index, other keys are found as before, the recorded keys are the inverse map, indices stay below the table size less the number of buckets, and the flag is cleared exactly if an insertion was refused.", "quantifier": "for all types of keys, hash functions, sizes and numbers of buckets and sequences of insertions", "why_tests_cant": "A key may be in any of three buckets depending on how full the others were when it came; a key stored twice shows only after particular collisions.", "anchors": ["include/zensim/py_interop/BhtView.hpp: BhtViewLite::insert, BhtViewLite::query"]}
{"id": "C117", "title": "Bits are gathered and scattered by a mask", "statement": "bit_pack_cuda returns a number whose bit j is the bit of the data at the place of bit j of the mask, zero above the number of bits of the mask; bit_spread_cuda puts the bits of the data in order at the places of the mask, and zero elsewhere; each undoes the other.", "quantifier": "for all masks with a bit below the highest, and all data", "why_tests_cant": "There are 2^64 masks; the functions count leading zeros of a reversed mask, and an error for masks with certain gaps is easily missed.", "anchors": ["include/zensim/cuda/DeviceUtils.cuh: bit_spread_cuda, bit_pack_cuda"]}
