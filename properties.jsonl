{"id": "C01", "title": "Rational values are always canonical", "statement": "Every rational built by the public constructors (from n, from n/d, or from another rational) has a positive denominator, numerator and denominator are coprime, and it denotes exactly n/d; building one with a zero denominator aborts and never yields a value.", "quantifier": "all integers n and d (either sign, zero included)", "why_tests_cant": "The input domain is infinite and the canonical form is a for-all claim about gcd.", "anchors": ["libcfa/src/rational.cfa: gcd, simplify, ?{}", "libcfa/src/rational.hfa"]}
{"id": "C02", "title": "Rational arithmetic is exact", "statement": "+, -, *, / and unary minus on rationals return the canonical rational denoting the exact mathematical result; division by the zero rational aborts; +=, -=, *=, /= store the same value the binary operator returns.", "quantifier": "all pairs of canonical rationals", "why_tests_cant": "Unbounded operand domain, special-cased equal denominators, sign juggling in division.", "anchors": ["libcfa/src/rational.cfa: ?+?, ?-?, ?*?, ?/?, -?"]}
{"id": "C03", "title": "Rational comparison is the order of Q", "statement": "==, !=, <, <=, >, >= on rationals agree with the order of the rational numbers: they are consistent with each other, total and transitive.", "quantifier": "all pairs and triples of canonical rationals", "why_tests_cant": "Total-order laws quantify over all triples.", "anchors": ["libcfa/src/rational.cfa: ?==?, ?<?, ?<=?, ?>?, ?>=?"]}
{"id": "C04", "title": "Rational integer power", "statement": "x \\ y for integer y is the y-th power of the rational x, for negative y the power of its reciprocal, and the result is canonical; 0 to a negative power is not a valid rational.", "quantifier": "all canonical rationals x and all integers y", "why_tests_cant": "Infinite exponents and bases; the sign case is easy to get wrong.", "anchors": ["libcfa/src/rational.cfa: ?\\?"]}
{"id": "C05", "title": "Rational setters replace one part and return the old one", "statement": "numerator(r,n) and denominator(r,d) change the caller's rational r to the canonical form of the new fraction and return the previous numerator/denominator.", "quantifier": "all rationals r and integers n, d with d non-zero", "why_tests_cant": "For-all claim; the parameter-passing mode decides whether the caller's object changes.", "anchors": ["libcfa/src/rational.cfa: numerator, denominator"]}
{"id": "C06", "title": "Power-of-two alignment", "statement": "floor2(n,a) and ceiling2(n,a) return the greatest multiple of a not above n and, when it is representable, the least multiple of a not below n, for every power of two a; is_pow2 accepts exactly the non-zero powers of two; libFloor and libCeiling agree with them.", "quantifier": "all w-bit words n and all power-of-two alignments a, every width", "why_tests_cant": "2^128 operand pairs.", "anchors": ["libcfa/src/bitmanip.hfa: floor2, ceiling2, is_pow2", "libcfa/src/bits/align.hfa: libPow2, libFloor, libCeiling"]}
{"id": "C07", "title": "Bit-scan functions", "statement": "leading0s, trailing0s, all1s, all0s count the named bits; low1/high1/low0/high0 return 1 plus the position of the lowest/highest set/clear bit, 0 when there is none; log-style results bracket the argument between powers of two.", "quantifier": "all w-bit words", "why_tests_cant": "2^64 inputs per function plus the zero corner case.", "anchors": ["libcfa/src/bitmanip.hfa: leading0s, trailing0s, all1s, all0s, low0, low1, high0, high1"]}
{"id": "C08", "title": "Duration and Time arithmetic", "statement": "Durations are exact counts of nanoseconds: unit constructors (`ns .. `w) and unit accessors are inverse up to truncation toward zero, addition/subtraction/scaling are exact integer arithmetic, d == (d/e)*e + d%e, Time - Time is the Duration that added to the second gives the first.", "quantifier": "all durations and times within the representable range", "why_tests_cant": "64-bit ranges.", "anchors": ["libcfa/src/time.hfa", "libcfa/src/time_t.hfa"]}
{"id": "C09", "title": "timeval/timespec conversion round-trips", "statement": "Converting a non-negative Duration or Time to timespec and back is the identity and yields a nanosecond field in [0,10^9); to timeval and back loses exactly the sub-microsecond part; adding or subtracting the C structs yields a normalised struct.", "quantifier": "all durations, times and struct pairs", "why_tests_cant": "64-bit ranges and carry cases.", "anchors": ["libcfa/src/time.hfa: ?{}( timeval &, ...), ?{}( timespec &, ...), ?+?, ?-?", "libcfa/src/time.cfa"]}
{"id": "C10", "title": "itimerval construction", "statement": "An itimerval built from a Duration and an interval has both fields normalised (microseconds below 10^6) and denoting the requested durations.", "quantifier": "all non-negative durations and intervals", "why_tests_cant": "64-bit range of both arguments.", "anchors": ["libcfa/src/time.hfa: ?{}( itimerval & )"]}
{"id": "C11", "title": "Duration printing denotes the value", "statement": "Printing a Duration emits a decimal numeral equal to the duration in seconds: sign, whole seconds and the fraction with trailing zeros dropped.", "quantifier": "all durations", "why_tests_cant": "2^64 values; sign corner between -1s and 0.", "anchors": ["libcfa/src/time.cfa: nanomsd, ?|?( ostype & os, Duration dur )"]}
{"id": "C12", "title": "Pseudo-random generators never get stuck", "statement": "Seeding a generator with any seed never puts it in a state it cannot leave: every later draw changes the state (for the generators that output their state, the value drawn too). The state transition is one-to-one, so distinct states stay distinct.", "quantifier": "all seeds, all states, any number of calls", "why_tests_cant": "2^64 (or 2^256) states; only an algebraic argument covers them.", "anchors": ["libcfa/src/bits/random.hfa: splitmix64, xoshiro256pp, xorshift_13_7_17, xorshift_6_21_7, LCGBI_fwd"]}
{"id": "C13", "title": "Bi-directional LCG runs backwards", "statement": "Stepping the bi-directional generator backwards replays exactly, in reverse order, the values the forward stepping produced, for any number of steps from any 48-bit seed.", "quantifier": "all seeds and all step counts", "why_tests_cant": "Seed space 2^48 and unbounded sequence lengths.", "anchors": ["libcfa/src/bits/random.hfa: LCGBI_fwd, LCGBI_bck"]}
{"id": "C14", "title": "Bounded random numbers stay in range", "statement": "prng(g,u) lies in [0,u), prng(g,l,u) lies in [l,u] for l <= u, and every value of the range is reachable from some generator output.", "quantifier": "all generator outputs, all bounds", "why_tests_cant": "2^192 triples; includes wrap-around of u-l+1.", "anchors": ["libcfa/src/stdlib.hfa: prng, random"]}
{"id": "C15", "title": "Address sort used for multi-lock acquisition", "statement": "The small-array sort leaves a permutation of its input in non-decreasing order for every array length, so every thread acquires the same set of monitors/locks in the same order.", "quantifier": "all arrays of all lengths", "why_tests_cant": "All permutations with duplicates for each size, and unbounded sizes in the insertion-sort fallback.", "anchors": ["libcfa/src/bits/algorithm.hfa: __libcfa_small_sort"]}
{"id": "C16", "title": "Binary searches", "statement": "On an array sorted by <, bsearchl returns the first position whose element is not less than the key, bsearchu the first position whose element is greater; both lie in [0,dim], all elements before are smaller (or not greater) and all after are not.", "quantifier": "all sorted arrays, all keys, all element orders", "why_tests_cant": "Unbounded arrays.", "anchors": ["libcfa/src/stdlib.cfa: bsearchl, bsearchu"]}
{"id": "C17", "title": "Queue behaves as a FIFO sequence", "statement": "Any sequence of addHead, addTail, dropHead, dropTail, remove(node), transfer, split, head, last, succ and iteration on intrusive Queues behaves like the same operations on a list of nodes; a node is listed exactly while it is in some queue.", "quantifier": "all histories of operations that respect the documented preconditions, any number of nodes", "why_tests_cant": "Unbounded histories over pointer structures.", "anchors": ["libcfa/src/bits/queue.hfa", "libcfa/src/bits/collection.hfa"]}
{"id": "C18", "title": "Stack behaves as a LIFO sequence", "statement": "Any sequence of push/addHead, pop/drop, top and iteration on an intrusive Stack behaves like a list used as a stack.", "quantifier": "all histories", "why_tests_cant": "Unbounded histories over pointer structures.", "anchors": ["libcfa/src/bits/stack.hfa"]}
{"id": "C19", "title": "Sequence behaves as a doubly linked list", "statement": "insertBef, insertAft, addHead, addTail, remove, dropHead, dropTail, succ, pred, transfer, split on an intrusive Sequence act as list insertion, deletion, concatenation and splitting, forwards and backwards traversals are reverses of each other.", "quantifier": "all histories respecting the preconditions", "why_tests_cant": "Unbounded histories over circular pointer structures.", "anchors": ["libcfa/src/bits/sequence.hfa"]}
{"id": "C20", "title": "Kernel queue behaves as a FIFO", "statement": "append/pop_head/remove on the runtime's thread queue behave as list append, head removal and removal of one element; no element is lost or duplicated and order is preserved, including after removing the last element.", "quantifier": "all histories", "why_tests_cant": "Unbounded histories; tail-pointer corner cases.", "anchors": ["libcfa/src/bits/collections.hfa: __queue, append, peek, pop_head, remove"]}
{"id": "C21", "title": "dlist refines a list", "statement": "insert_first, insert_last, insert_before, insert_after, remove, remove_first, remove_last, empty, first, last on an intrusive dlist act as the list operations; listed elements are exactly the members; the structural validator accepts every reachable list.", "quantifier": "all histories respecting the preconditions, any number of elements and lists", "why_tests_cant": "Unbounded histories over tagged-pointer rings.", "anchors": ["libcfa/src/collections/list.hfa"]}
{"id": "C22", "title": "dlist traversal", "statement": "Starting from the list iterator, repeated advance visits the elements in order, then reports false; recede visits them in reverse; first(node)/last(node) hold exactly for the first/last element.", "quantifier": "all lists and all positions", "why_tests_cant": "Unbounded lists.", "anchors": ["libcfa/src/collections/list.hfa: iter, advance, recede, first, last"]}
{"id": "C23", "title": "Ready-queue lane is a FIFO of threads", "statement": "push then pop on a scheduler lane return threads in FIFO order, the emptiness test holds exactly when nothing is queued, and the lane's age stamp is MAX exactly when it is empty.", "quantifier": "all push/pop histories and clock readings", "why_tests_cant": "Unbounded histories.", "anchors": ["libcfa/src/concurrency/ready_subqueue.hfa: push, pop, is_empty, ts"]}
{"id": "C24", "title": "Alarm list stays sorted by deadline", "statement": "After any sequence of alarm registrations, cancellations and expirations the alarm list is sorted by deadline with equal deadlines in registration order, and an expiry pass at time t fires exactly the alarms whose deadline is before t, in that order, and re-arms the periodic ones.", "quantifier": "all histories of register/unregister/expire", "why_tests_cant": "Unbounded histories.", "anchors": ["libcfa/src/concurrency/alarm.cfa: insert, pop, register_self, unregister_self", "libcfa/src/concurrency/preemption.cfa: tick_preemption"]}
{"id": "C25", "title": "vector is a growable array", "statement": "push_back appends, pop_back removes the last, v[i] returns the i-th element, size and empty agree, and growth never loses elements.", "quantifier": "all histories of push_back/pop_back/assignment", "why_tests_cant": "Unbounded histories and growth boundaries.", "anchors": ["libcfa/src/collections/vector.hfa", "libcfa/src/collections/vector.cfa"]}
{"id": "C26", "title": "vector copy and clear", "statement": "A copy-constructed or assigned vector holds equal elements; clear destroys every element exactly once and leaves an empty vector.", "quantifier": "all vectors", "why_tests_cant": "Unbounded sizes.", "anchors": ["libcfa/src/collections/vector.cfa: copy_internal, clear"]}
{"id": "C27", "title": "vector2 subscript checking and iterator stability", "statement": "v[i] designates the i-th element for every 0 <= i < length, negative indices count from the end, and no index reads storage that holds no element; push_last and insert_before add exactly one element; permits keep designating the same element across growth and insertion, exits forbid growth, and moveNext visits all elements in order.", "quantifier": "all vectors, indices, iterator sets", "why_tests_cant": "Unbounded histories; signed/unsigned corner cases.", "anchors": ["libcfa/src/collections/vector2.hfa: findElemMem_$, grow_$, push_last"]}
{"id": "C28", "title": "Multi-dimensional array subscripting", "statement": "For an array of dimensions n0..nk, distinct in-range index vectors designate disjoint cells inside the storage, every cell is reached, and every way of partially subscripting (including [all] slices) designates the same cell for the same index vector.", "quantifier": "all dimension vectors and index vectors", "why_tests_cant": "Unbounded dimensions.", "anchors": ["libcfa/src/collections/array.hfa: arpk, ?[?]"]}
{"id": "C29", "title": "maybe and result track presence", "statement": "A maybe holds a value exactly after being built/assigned/set from one; get returns the value last set; result holds exactly one of value or error; copy, assignment and set_none/set_error destroy what they replace exactly once.", "quantifier": "all histories of constructions, assignments and sets", "why_tests_cant": "Unbounded histories with destructor accounting.", "anchors": ["libcfa/src/collections/maybe.cfa", "libcfa/src/collections/result.cfa"]}
{"id": "C30", "title": "String value operations", "statement": "Concatenation, assignment, comparison, indexing, size, substring, repetition on strings have the usual meaning on character sequences.", "quantifier": "all strings", "why_tests_cant": "Unbounded strings.", "anchors": ["libcfa/src/collections/string_res.cfa: assign, append, strcmp$, ?()", "libcfa/src/collections/string.cfa"]}
{"id": "C31", "title": "String searching", "statement": "find returns the least position at which the key occurs (or the length if none), includes/startsWith/endsWith agree with it, include/exclude/translate act character-wise.", "quantifier": "all strings and keys including empty ones", "why_tests_cant": "Unbounded strings; empty-key corner cases.", "anchors": ["libcfa/src/collections/string_res.cfa: find, findFrom, includes, startsWith, endsWith, include, exclude, translate"]}
{"id": "C32", "title": "String heap garbage collection preserves every string", "statement": "Whatever allocations, copies, assignments and destructions happened, a garbage collection or heap extension leaves the characters of every live string unchanged, leaves live texts pairwise disjoint unless shared, and makes the requested space available.", "quantifier": "all heap histories and sizes", "why_tests_cant": "Unbounded histories, overlapping substrings.", "anchors": ["libcfa/src/collections/string_res.cfa: compaction, garbage, extend, VbyteAlloc, VbyteTryAdjustLast, AddThisAfter, DeleteNode, MoveThisAfter"]}
{"id": "C33", "title": "Shared-edit substrings stay aligned", "statement": "When strings share edits, assigning to one makes every other string of the share set denote what the edit leaves of its range: ranges before/after are shifted, containing ranges grow or shrink, and the texts outside the edited range are unchanged.", "quantifier": "all share sets, all edit positions and lengths", "why_tests_cant": "Unbounded overlap configurations.", "anchors": ["libcfa/src/collections/string_res.cfa: assignEditSet, locateInShareSet"]}
{"id": "C34", "title": "Semaphore counts permits", "statement": "At any time completed P operations never exceed initial count plus V operations; a thread blocks in P only when no permit is available, blocked threads are released in FIFO order, V(n) releases min(n, waiters).", "quantifier": "all interleavings of any number of threads", "why_tests_cant": "Unbounded interleavings.", "anchors": ["libcfa/src/concurrency/locks.hfa: semaphore", "libcfa/src/concurrency/locks.cfa: P, V, V(n)"]}
{"id": "C35", "title": "Blocking locks give FIFO mutual exclusion", "statement": "single/owner/multiple acquisition locks: at most one thread owns the lock, waiting threads acquire in FIFO order, an owner lock is released to others only after as many unlocks as locks, and no waiter is forgotten when the lock is free.", "quantifier": "all interleavings of any number of threads", "why_tests_cant": "Unbounded interleavings and recursion depth.", "anchors": ["libcfa/src/concurrency/locks.cfa: lock, try_lock, unlock, pop_node"]}
{"id": "C36", "title": "Futex mutex: exclusion and no lost wake-up", "statement": "At most one thread is past lock() and not yet past unlock(); whenever a thread sleeps in the kernel on the lock the lock is held or a wake-up is on its way.", "quantifier": "all interleavings of any number of threads", "why_tests_cant": "Interleavings at the granularity of individual atomic instructions.", "anchors": ["libcfa/src/concurrency/locks.hfa: futex_mutex"]}
{"id": "C37", "title": "Go mutex: exclusion and no lost wake-up", "statement": "Same guarantee for the go-style futex mutex, in which the speculative exchange may temporarily erase the sleeping marker.", "quantifier": "all interleavings of any number of threads", "why_tests_cant": "The transient-marker race needs specific interleavings.", "anchors": ["libcfa/src/concurrency/locks.hfa: go_mutex"]}
{"id": "C38", "title": "MCS locks: FIFO mutual exclusion", "statement": "MCS block and spin locks grant the lock to one thread at a time in the order in which threads swapped themselves onto the tail, for any number of threads.", "quantifier": "all interleavings of any number of threads", "why_tests_cant": "The tail-swap/next-link window needs rare interleavings.", "anchors": ["libcfa/src/concurrency/locks.hfa: mcs_lock, mcs_spin_lock", "libcfa/src/collections/lockfree.hfa: mcs_queue"]}
{"id": "C39", "title": "Spin/block hybrid locks: exclusion and no lost wake-up", "statement": "exp_backoff_then_block_lock: at most one holder, and a thread parked on the lock is always either going to be woken or the lock is held in the contended state.", "quantifier": "all interleavings of any number of threads", "why_tests_cant": "Interleavings of atomic exchange and the internal list.", "anchors": ["libcfa/src/concurrency/locks.hfa: exp_backoff_then_block_lock"]}
{"id": "C40", "title": "Linear and owner block locks", "statement": "fast_block_lock and simple_owner_lock hand the lock directly to the longest waiter: exclusion, FIFO order, ownership and recursion count are preserved through hand-off and condition-variable reacquisition.", "quantifier": "all interleavings of any number of threads", "why_tests_cant": "Unbounded interleavings.", "anchors": ["libcfa/src/concurrency/locks.hfa: fast_block_lock, simple_owner_lock"]}
{"id": "C41", "title": "Condition variables do not lose or invent signals", "statement": "A waiter on a condition variable returns only after a notify that followed its wait (or its time-out), notify_one wakes the longest waiter, notify_all wakes all current waiters, and the lock is reacquired with its former recursion.", "quantifier": "all interleavings", "why_tests_cant": "Unbounded interleavings.", "anchors": ["libcfa/src/concurrency/locks.cfa: wait, notify_one, notify_all, queue_info_thread"]}
{"id": "C42", "title": "Time-out conversion of pthread condition waits", "statement": "A timed wait on pthread_cond_var until absolute time t sleeps for t minus now when t is in the future and not at all when t is past.", "quantifier": "all absolute times and clocks", "why_tests_cant": "64-bit ranges.", "anchors": ["libcfa/src/concurrency/locks.cfa: getDuration, pthread_cond_var wait"]}
{"id": "C43", "title": "Channels deliver every element once in FIFO order", "statement": "Elements leave a channel in the order they entered, each exactly once; a bounded channel never stores more than its capacity; producers block only when full and consumers only when empty.", "quantifier": "all interleavings of any number of producers and consumers, all capacities including 0", "why_tests_cant": "Unbounded interleavings.", "anchors": ["libcfa/src/concurrency/channel.hfa: insert, remove, buf_insert, buf_remove"]}
{"id": "C44", "title": "Closing a channel", "statement": "After close, inserts fail, removes drain what was stored before and then fail, and every blocked producer and consumer is released exactly once.", "quantifier": "all interleavings", "why_tests_cant": "Unbounded interleavings.", "anchors": ["libcfa/src/concurrency/channel.hfa: close, flush, closed_insert, closed_remove"]}
{"id": "C45", "title": "Futures are write-once", "statement": "get/get-ready return the value of the (single) fulfil, to every waiter, whether it came before or after; reading never blocks after fulfilment; a second fulfil is rejected.", "quantifier": "all interleavings of any number of readers", "why_tests_cant": "Unbounded interleavings.", "anchors": ["libcfa/src/concurrency/future.hfa: fulfil, get, reset"]}
{"id": "C46", "title": "waituntil OR executes exactly one clause", "statement": "When several resources become available concurrently to threads racing on the same waituntil, exactly one clause is committed, a losing resource is not consumed, and two threads racing on each other's selects never both win the same node nor deadlock.", "quantifier": "all interleavings", "why_tests_cant": "Races between several selects need specific interleavings.", "anchors": ["libcfa/src/concurrency/select.hfa: __make_select_node_available, __handle_waituntil_OR, __pending_set_other", "libcfa/src/concurrency/select.cfa"]}
{"id": "C47", "title": "once_call runs its function exactly once", "statement": "For any number of concurrent callers the function is executed exactly once and no caller returns before that execution completed.", "quantifier": "all interleavings", "why_tests_cant": "Unbounded interleavings.", "anchors": ["libcfa/src/concurrency/once.hfa", "libcfa/src/collections/lockfree.hfa: poison_list"]}
{"id": "C48", "title": "Barriers release generations together", "statement": "A barrier of size n lets a thread through only after n threads of its generation arrived; the calls of a generation return n-1 down to 0 in the order of arrival; generations do not mix.", "quantifier": "all interleavings and barrier sizes", "why_tests_cant": "Unbounded interleavings and generations.", "anchors": ["libcfa/src/concurrency/barrier.hfa"]}
{"id": "C49", "title": "Lock-free stack", "statement": "Concurrent push and pop on the lock-free stack are linearizable to a LIFO stack, in spite of node reuse (ABA), as long as the version counter does not wrap.", "quantifier": "all interleavings of any number of threads", "why_tests_cant": "ABA needs specific interleavings.", "anchors": ["libcfa/src/collections/lockfree.hfa: StackLF"]}
{"id": "C50", "title": "park/unpark pair up", "statement": "If every park is matched by exactly one unpark, in either order (but after the thread has returned from its previous park), the thread is never lost (it runs again), never scheduled twice at once, and the runtime never aborts with a park/unpark mismatch.", "quantifier": "all interleavings of the parking thread, its processor and the unparking thread", "why_tests_cant": "The race between a thread blocking and its wake-up.", "anchors": ["libcfa/src/concurrency/kernel.cfa: __run_thread, __must_unpark, unpark, park", "libcfa/src/concurrency/kernel/private.hfa: TICKET_*"]}
{"id": "C51", "title": "oneshot and single_sem never lose a post", "statement": "A wait on a oneshot (or single_sem) returns only after a post and always returns once a post happened, whichever comes first; post reports whether it woke a thread.", "quantifier": "all interleavings", "why_tests_cant": "Interleavings of compare-exchange loops.", "anchors": ["libcfa/src/concurrency/kernel/fwd.hfa: oneshot, single_sem"]}
{"id": "C52", "title": "Kernel future state machine and wait_any", "statement": "fulfil wakes the waiter exactly once whichever side is first; an abandoned future is freed exactly once; when wait_any returns no future still refers to its (dead) wait context.", "quantifier": "all interleavings of one server and one client, any number of futures", "why_tests_cant": "Interleavings plus dangling references.", "anchors": ["libcfa/src/concurrency/kernel/fwd.hfa: future_t, setup, retract, fulfil, abandon, wait_any"]}
{"id": "C53", "title": "Monitors: mutual exclusion, recursion and entry order", "statement": "At most one thread executes in a monitor; nested entries by the owner are counted and released in balance; when the owner leaves, the signalled threads run before entering threads, which enter in arrival order.", "quantifier": "all histories of enter/leave/wait/signal/signal_block on a monitor", "why_tests_cant": "Unbounded histories.", "anchors": ["libcfa/src/concurrency/monitor.cfa: __enter, __leave, wait, signal, signal_block, next_thread"]}
{"id": "C54", "title": "Entering several monitors cannot deadlock", "statement": "Threads that each acquire a set of monitors through a mutex statement/guard acquire them in one global order, so there is no cyclic wait.", "quantifier": "all sets of monitors and threads", "why_tests_cant": "Unbounded sets and interleavings.", "anchors": ["libcfa/src/concurrency/monitor.cfa: monitor_guard_t ?{}, enter", "libcfa/src/concurrency/mutex_stmt.hfa", "libcfa/src/bits/algorithm.hfa"]}
{"id": "C55", "title": "waitfor aggregation", "statement": "The set of monitors blocked by a waitfor statement is the duplicate-free, sorted union of the monitors of its clauses, and storage sized by the clause sizes is never exceeded.", "quantifier": "all waitfor masks", "why_tests_cant": "Unbounded masks.", "anchors": ["libcfa/src/concurrency/monitor.cfa: aggregate, insert_unique, count_max, search_entry_queue"]}
{"id": "C56", "title": "Actor mailboxes deliver in order exactly once", "statement": "Messages sent to an actor are received exactly once and in send order from each sender, across mailbox growth, gulping by workers and memory reclaim.", "quantifier": "all interleavings of senders and workers", "why_tests_cant": "Unbounded interleavings and buffer resizing.", "anchors": ["libcfa/src/concurrency/actor.hfa: copy_queue, work_queue, insert, remove, transfer, reclaim"]}
{"id": "C57", "title": "Work stealing never loses or duplicates a mailbox", "statement": "Whatever steals race, every mailbox is in exactly one worker slot or privately held by the thief completing the swap, no slot is permanently empty, and every mailbox belongs to some worker's range.", "quantifier": "all interleavings of any number of workers", "why_tests_cant": "Races of three or more thieves.", "anchors": ["libcfa/src/concurrency/actor.hfa: try_swap_queues, choose_queue, executor ?{}"]}
{"id": "C58", "title": "SNZI query", "statement": "The root indicator is non-zero whenever some arrival has completed and not yet departed, and is zero when all arrivals have departed and none is in progress.", "quantifier": "all interleavings of arrivals and departures, all tree depths", "why_tests_cant": "Unbounded interleavings.", "anchors": ["libcfa/src/concurrency/snzi.hfa"]}
{"id": "C59", "title": "Filled allocation writes only its own storage", "statement": "alloc(dim, ...`fill) initialises exactly the newly obtained part of the block with the fill pattern and writes nothing outside the block, also when combined with `realloc.", "quantifier": "all sizes, old sizes and fill kinds", "why_tests_cant": "Unbounded sizes.", "anchors": ["libcfa/src/stdlib.hfa: alloc_internal$"]}
{"id": "C60", "title": "convert rejects what it cannot represent", "statement": "convert of a character string to an integral type returns the value of the numeral, raises out_of_range when it does not fit the target type and invalid_argument when the text is not a numeral.", "quantifier": "all strings and target types", "why_tests_cant": "Unbounded strings.", "anchors": ["libcfa/src/stdlib.cfa: convert", "libcfa/src/stdlib.hfa: strto"]}
{"id": "C61", "title": "Resolution cost order", "statement": "Comparing two conversion costs is the lexicographic comparison of (unsafe, implicit, poly, safe, sign, var, spec, reference); adding costs adds component-wise, is commutative, associative and monotone while components stay below 256; infinity is absorbing and greatest.", "quantifier": "all costs", "why_tests_cant": "2^128 pairs.", "anchors": ["src/ResolvExpr/Cost.hpp: Cost"]}
{"id": "C62", "title": "Persistent map", "statement": "Every version of a persistent map keeps its contents for ever: get/count/size on any version return the same answers whatever set/erase/lookup operations are later applied to any version of the same tree.", "quantifier": "all histories of operations over a version tree", "why_tests_cant": "Unbounded histories; the hidden rerooting mutates shared nodes.", "anchors": ["src/Common/PersistentMap.hpp: reroot, set, erase, get, count"]}
{"id": "C63", "title": "Scoped map", "statement": "find returns the innermost binding, beginScope/endScope restore exactly the earlier bindings, count is the number of scopes binding the key, iteration enumerates every binding once from inner to outer.", "quantifier": "all histories", "why_tests_cant": "Unbounded histories.", "anchors": ["src/Common/ScopedMap.hpp"]}
{"id": "C64", "title": "Erasable scoped map", "statement": "After erase a key is not found until the scope ends; after insert it is found with the inserted value; erase reports whether an element was erased.", "quantifier": "all histories", "why_tests_cant": "Unbounded histories.", "anchors": ["src/GenPoly/ErasableScopedMap.hpp"]}
{"id": "C65", "title": "filterCombos enumerates exactly the accepted combinations", "statement": "filterCombos returns, in lexicographic order and without repetition, exactly the combinations (one candidate per position) all of whose prefixes the filter accepts, and terminates.", "quantifier": "all candidate lists and all prefix filters", "why_tests_cant": "Unbounded combination spaces.", "anchors": ["src/Common/FilterCombos.hpp: filterCombos"]}
{"id": "C66", "title": "Constant-expression evaluation is sound", "statement": "When the compiler's evaluator claims a known value for a constant expression, that value is the value the expression has in C; it claims none for expressions without a value (division by zero, overflowing shift).", "quantifier": "all constant expressions", "why_tests_cant": "Unbounded expression trees.", "anchors": ["src/Common/Eval.cpp"]}
{"id": "C67", "title": "Name mangling distinguishes overloads", "statement": "Two declarations mangle to the same symbol only if they have the same name and the same type up to reference-ness, outermost qualifiers, array dimension and renaming of type parameters.", "quantifier": "all declarations", "why_tests_cant": "Unbounded type terms; unique readability.", "anchors": ["src/SymTab/Mangler.cpp", "src/SymTab/ManglerCommon.cpp"]}
{"id": "C68", "title": "Type environment keeps type variables in one class", "statement": "In every reachable type environment each type variable belongs to at most one equivalence class, lookups agree with the bindings made, and combining two environments either fails or satisfies the constraints of both.", "quantifier": "all histories of binding and merging", "why_tests_cant": "Unbounded histories.", "anchors": ["src/AST/TypeEnvironment.cpp: add, bindVar, bindVarToVar, combine, mergeClasses, mergeBound"]}
{"id": "C69", "title": "Integer power is exact", "statement": "x \\ y on machine integers is the exact power whenever it is representable, and on unsigned types the power modulo 2^w otherwise; on a user type with a multiplication it is the y-fold product.", "quantifier": "all bases, all exponents, every width", "why_tests_cant": "2^128 pairs and unbounded user types.", "anchors": ["libcfa/src/math.cfa: ?\\?, __CFA_EXP__"]}
{"id": "C70", "title": "Integer alignment to any multiple", "statement": "floor(n,align) is the greatest multiple of align not above n, ceiling(n,align) the least multiple not below n, and ceiling_div(n,align) the quotient rounded up, whenever the results are representable.", "quantifier": "all n and all positive alignments", "why_tests_cant": "2^128 pairs, both signs.", "anchors": ["libcfa/src/math.hfa: floor, ceiling, ceiling_div"]}
{"id": "C71", "title": "Fixed-point logarithm", "statement": "The u32.32 fixed-point base-2 logarithm has integer part exactly floor(log2 val), is exact on powers of two, never indexes outside its table and is defined for every positive argument.", "quantifier": "all 64-bit arguments", "why_tests_cant": "2^64 arguments and an interpolation table.", "anchors": ["libcfa/src/math.cfa: log2_u32_32"]}
{"id": "C72", "title": "Two-digit years", "statement": "The date formatting functions print the calendar year modulo 100 in two digits.", "quantifier": "all years of the epoch 1970-2038", "why_tests_cant": "Every representable time.", "anchors": ["libcfa/src/time.cfa: yy_mm_dd, mm_dd_yy, dd_mm_yy"]}
{"id": "C73", "title": "Runtime stack and doubly linked list", "statement": "push/pop on the runtime's intrusive stack and push_front/remove/move_to_front on its doubly linked list behave like the same operations on lists of nodes; push on a node that is linked above another one fails the runtime's check; no node is lost or duplicated when it moves between lists.", "quantifier": "all histories of operations that respect the preconditions, any number of nodes and lists", "why_tests_cant": "Unbounded histories over pointer structures.", "anchors": ["libcfa/src/bits/collections.hfa: __stack, __dllist, push, pop, push_front, remove, move_to_front"]}
{"id": "C74", "title": "Pair comparison", "statement": "The six comparison operators of pairs are those of the lexicographic order: exactly one of <, == and > holds, and <=, >=, != are the corresponding combinations.", "quantifier": "all pairs over totally ordered component types", "why_tests_cant": "Ranges over all component types and values.", "anchors": ["libcfa/src/collections/pair.cfa: ?<?, ?<=?, ?==?, ?!=?, ?>?, ?>=?"]}
{"id": "C75", "title": "Array construction and destruction match", "statement": "anew(dim, ...) runs the constructor once for each of the dim elements in increasing order, and adelete of the result runs the destructor once for each of them in decreasing order.", "quantifier": "all dimensions and element sizes", "why_tests_cant": "Unbounded dimensions; large arrays cannot be allocated in a test.", "anchors": ["libcfa/src/stdlib.cfa: anew, adelete"]}
{"id": "C76", "title": "Typed allocation asks for enough storage", "statement": "malloc, aalloc, calloc, resize, realloc, reallocarray, memalign, amemalign, cmemalign and aligned_alloc called for type T ask for dim * sizeof(T) bytes aligned for T (or as the caller says).", "quantifier": "all types and dimensions", "why_tests_cant": "Ranges over all types.", "anchors": ["libcfa/src/stdlib.hfa: malloc, aalloc, calloc, reallocarray, memalign, amemalign"]}
{"id": "C77", "title": "Range loops visit exactly the range", "statement": "for (i; lo ~ hi ~ step) executes its body for lo, lo+step, ... below hi (up to and including hi for ~=), and the descending forms -~, -~= for hi, hi-step, ... above lo (down to lo), and then ends.", "quantifier": "all index types, bounds and steps", "why_tests_cant": "Unbounded ranges.", "anchors": ["src/Parser/parser.yy: forCtrl, makeForCtrl, UPDOWN, updown"]}
{"id": "C78", "title": "waitfor accepts the calls it names", "statement": "A blocking waitfor lets in exactly the calls that one of its clauses names: if such a call is already waiting for entry it is accepted at once (the first clause that matches, and for it the thread that has waited longest), otherwise the next arriving call that a clause names is accepted and every other call waits; the waitfor continues after the accepted call has left, with the index of its clause as result; a waitfor with an else part that finds no waiting call changes nothing.", "quantifier": "all histories of calls, mutex statements, wait, signal, signal_block and waitfor on any number of monitors", "why_tests_cant": "Unbounded histories and interleavings.", "anchors": ["libcfa/src/concurrency/monitor.cfa: __waitfor_internal, search_entry_queue, is_accepted, check_condition, aggregate"]}
{"id": "C79", "title": "actor_stop waits for all actors", "statement": "actor_stop returns only after every actor created since actor_start has terminated, and once they all have terminated it does return.", "quantifier": "all histories of creations and terminations of actors by any threads, and all schedules", "why_tests_cant": "Unbounded histories and races with the terminating actors.", "anchors": ["libcfa/src/concurrency/actor.hfa: actor_start, actor_stop, check_actor, ?{}(actor &)", "libcfa/src/concurrency/kernel.cfa: __must_unpark"]}
{"id": "C80", "title": "Channels used by waituntil are first-in first-out", "statement": "Elements leave a channel in the order in which they were inserted, also when waituntil clauses insert or remove them: completed removes receive, in order, a prefix of the elements of the completed inserts, and the rest are still in the channel.", "quantifier": "all channel sizes, all programs of waituntil statements with or, try_insert and try_remove on any number of channels, and all interleavings", "why_tests_cant": "Depends on which of several waiting statements is served and when.", "anchors": ["libcfa/src/concurrency/channel.hfa: register_select$, on_selected$, __do_remove, __handle_select_pending"]}
{"id": "C81", "title": "Waituntil statements wait for their condition", "statement": "A waituntil statement whose clauses are joined by and and or executes the code of clauses that have become available until the executed clauses satisfy the condition, where a clause whose when condition is false counts as absent; it executes no clause once the condition is satisfied except those whose operation has already been performed, no clause twice, and none that is disabled or not available; it loses no performed operation; and it does not sleep when the available clauses satisfy the condition.", "quantifier": "all trees of and and or with any number of clauses and any when conditions, and all orders and interleavings in which clauses become available", "why_tests_cant": "The number of statements is unbounded, initial statuses depend on every combination of when conditions, and the counter races with the threads that make clauses available.", "anchors": ["src/Concurrency/Waituntil.cpp: paintWhenTree, collectWhens, genStatusAssign, genWhenStateConditions, genPredExpr, genNoElseClauseBranch, genAllOr", "libcfa/src/concurrency/select.hfa: __CFA_maybe_park, __make_select_node_available, wake_one"]}
{"id": "C82", "title": "A finished waituntil statement is not touched", "statement": "When a waituntil statement has finished, no other thread reads or writes its variables, which are local to the statement, or wakes its thread on its account.", "quantifier": "all conditions, all resources, and all interleavings with the threads that make clauses available", "why_tests_cant": "The window is between two instructions of the thread that makes a clause available.", "anchors": ["libcfa/src/concurrency/future.hfa: unregister_select$, fulfil$", "libcfa/src/concurrency/select.hfa: __make_select_node_available, wake_one", "src/Concurrency/Waituntil.cpp: GenerateWaitUntilCore::postvisit"]}
{"id": "C83", "title": "The scheduler is consistent while processors and clusters come and go", "statement": "While a processor or a cluster is being added or removed, no processor uses the ready queues and no other processor or cluster is added or removed; processors that use the ready queues do not wait for each other. Running processors have distinct identifiers below the maximum number of processors, a new processor is admitted as long as fewer than the maximum run, no processor waits forever when nobody is using or changing the queues, and the storage of a processor that has ended is not accessed.", "quantifier": "every number of kernel threads and every interleaving of creation and deletion of processors and clusters with scheduling", "why_tests_cant": "The windows are a few instructions wide and involve several kernel threads; a stress test passes without meeting them.", "anchors": ["libcfa/src/concurrency/kernel/cluster.cfa: register_proc_id, unregister_proc_id, ready_mutate_lock, ready_mutate_unlock", "libcfa/src/concurrency/kernel/private.hfa: ready_schedule_lock, ready_schedule_unlock, ready_mutate_register, ready_mutate_unregister"]}
{"id": "C84", "title": "Blocks returned by the memory allocator are disjoint, aligned and large enough", "statement": "For every program, number of kernel threads and interleaving: the address returned by malloc, aalloc, calloc, memalign, amemalign, cmemalign, resize, realloc and reallocarray (with and without alignment) is not null, is a multiple of the alignment asked for and of 16, the block has at least the number of bytes asked for, lies completely in memory obtained from the system, and has no byte in common with any other block that is allocated at that time, whichever thread allocated or freed which block. The allocator never uses an address that is not mapped, and stops the program only if the system refuses memory or an alignment is not a power of two of at least 16.", "quantifier": "all sizes, alignments, sequences of calls by any number of threads, all interleavings of their steps, all answers of sbrk and mmap, all values of the tuning parameters", "why_tests_cant": "Tests allocate a few sizes in a few orders; overlaps need particular histories of free lists, returned blocks and reserves, and sizes near the limits of size_t are never tried.", "anchors": ["libcfa/src/heap.cfa: doMalloc, doFree, manager_extend, master_extend, headers, memalignNoStats, resize, realloc", "libcfa/src/heap.cfa: setMmapStart, mallopt", "libcfa/src/bitmanip.hfa: ceiling2"]}
{"id": "C85", "title": "Contents of allocated memory are kept", "statement": "For every program and interleaving: the bytes a client has written to a block stay as they are until the client writes them again or gives the block back, whatever other threads allocate or free; memory from calloc and cmemalign is 0; realloc keeps the bytes up to the smaller of the old and the new size and, if the block came from calloc, fills the rest with 0; malloc_size, malloc_alignment and malloc_zero_fill answer with the size, the alignment and the fill of the request.", "quantifier": "all histories of calls and writes by any number of threads, all interleavings", "why_tests_cant": "Whether a byte survives depends on everything other threads do in between, including the reuse of freed blocks.", "anchors": ["libcfa/src/heap.cfa: calloc, cmemalign, resize, realloc, reallocarray, malloc_size, malloc_alignment, malloc_zero_fill"]}
{"id": "C86", "title": "Allocation routines always finish", "statement": "Every call of an allocation routine or of free ends after a bounded number of its own steps, whatever other threads do, and is never stuck.", "quantifier": "all states, requests and interleavings", "why_tests_cant": "A test that finishes shows nothing about the schedules in which it would not.", "anchors": ["libcfa/src/heap.cfa: doMalloc, doFree, memalignNoStats, realloc"]}
{"id": "C87", "title": "Each kernel thread has a heap of its own, and heaps are reused", "statement": "No two kernel threads that run at the same time use the same heap, and the heap of a thread that has ended is used for a later thread, so that the number of heaps is at most the largest number of kernel threads that ran at the same time.", "quantifier": "all sequences of starts and ends of kernel threads", "why_tests_cant": "The loss of a heap shows only as memory growth after many threads have come and gone.", "anchors": ["libcfa/src/heap.cfa: getHeap, heapManagerCtor, heapManagerDtor"]}
{"id": "C88", "title": "break, continue and fallthrough do what they say", "statement": "The function the translator writes for a function with break, continue, fallthrough and fallthrough default, with or without labels, in any nesting of blocks, if, loops (with and without an else clause), switch and choose, does the same as the function in the program: break leaves the innermost loop or switch, or the enclosing statement with the label; continue goes to the next iteration of the innermost loop or of the enclosing loop with the label; fallthrough goes to the next clause or to the label; fallthrough default goes to the default clause; a clause of choose ends the choose. Every goto in the result has its label, no label occurs twice, no label of the program is lost, and a valid function is not rejected.", "quantifier": "all function bodies, all stores, all meanings of the expressions, all executions of any length", "why_tests_cant": "Each nesting of control structures and each kind of exit from it is another program; a test has one program and one path.", "anchors": ["src/ControlStruct/MultiLevelExit.cpp: MultiLevelExitCore", "src/ControlStruct/FixLabels.cpp: FixLabelsCore", "src/ControlStruct/LabelGenerator.cpp: newLabel", "src/Parser/StatementNode.cpp: build_switch"]}
{"id": "C89", "title": "Exceptions are handled by the right handler, and nothing is left behind", "statement": "An exception that is thrown is handled by the first matching clause of the innermost try statement with one: of the clauses in order, the first whose type is the exception's type or an ancestor of it and whose condition holds. throw looks for the handler first, then leaves the statements in between, executing each of their finally clauses once, and continues after the try statement of the handler; throwResume calls the handler and continues after the throwResume, and during the handler the try statements up to its own are not searched for resumptions. throw; and throwResume; in a handler go on with the same exception outside of it. Without a handler, the default handler of the throw is called; without one, a resumption becomes a termination and for a termination the stack is cancelled. A finally clause is executed however its try statement is left. Whatever happens, every exception object is deleted exactly once, no handler stays installed after its try statement, and no deleted object or null pointer is used.", "quantifier": "all programs of nested try statements, handlers, conditions, finally clauses, calls and throws, all hierarchies of exception types, all stores, all executions of any length", "why_tests_cant": "Each nesting of try statements, calls and throws, in blocks, handlers, default handlers and finally clauses, is another program; a leak or a handler left behind shows only in what happens later.", "anchors": ["src/ControlStruct/ExceptTranslate.cpp: translateThrows, translateTries", "libcfa/src/exception.c: __cfaehm_throw_resume, __cfaehm_throw_terminate, __cfaehm_rethrow_terminate, __cfaehm_begin_unwind, __cfaehm_delete_exception, __cfaehm_try_terminate", "libcfa/src/exception.h: defaultTerminationHandler, defaultResumptionHandler", "libcfa/src/virtual.c: __cfavir_is_parent"]}
{"id": "C90", "title": "Smart pointers keep their object exactly as long as it is needed", "statement": "An object made with counter_ptr exists as long as some counter_ptr points to it and is destroyed exactly once, when the last one is destroyed, assigned or set to null; an object made with unique_ptr has exactly one owner and is destroyed exactly once, when its owner is. Copying, assigning (also from a pointer inside the object that is given up, and to itself), moving, releasing and setting to null never use freed memory, end, leave the pointers they name with the value they promise, and change no other variable. This holds for objects that themselves contain such pointers: lists, trees and cycles.", "quantifier": "every sequence of operations on any number of smart pointers, in variables and inside objects, with objects of any number of members", "why_tests_cant": "The shapes of pointer graphs and the orders of operations on them are unbounded, and a dangling pointer or a second destruction shows only when the freed memory has been reused.", "anchors": ["libcfa/src/memory.hfa:counter_ptr", "libcfa/src/memory.cfa:internal_decrement", "libcfa/src/memory.cfa:internal_copy", "libcfa/src/memory.cfa:move", "libcfa/src/memory.cfa:release"]}
{"id": "C91", "title": "A generic type has one layout, whether or not its arguments are known", "statement": "The size, the alignment and the member offsets of an instance of a generic structure or union are the same in code that knows its type arguments, where the instance is an ordinary C type laid out by the C compiler, and in polymorphic code, which computes them at run time from the sizes and alignments of its type parameters. Therefore an object made by one can be used by the other: every member is found at the same address. In particular members are aligned, inside the object, and members of a structure do not overlap. Local variables of a type that is not known are suitably aligned.", "quantifier": "all generic structures and unions with any number of parameters (complete or not) and members, nested to any depth through members, arguments and arrays, and all sizes and alignments of the type arguments", "why_tests_cant": "The combinations of member types, nestings, parameter kinds and argument layouts are unbounded; a wrong offset shows only for some alignments and reads padding or a neighbouring member instead of failing.", "anchors": ["src/GenPoly/Box.cpp:LayoutFunctionBuilder", "src/GenPoly/Box.cpp:makeAlignTo", "src/GenPoly/Box.cpp:findGeneric", "src/GenPoly/Box.cpp:addSTypeParamsToLayoutCall", "src/GenPoly/Box.cpp:genSizeof", "src/GenPoly/InstantiateGeneric.cpp:makeSubstitutions"]}
{"id": "C92", "title": "Objects exist exactly while their declarations are in scope", "statement": "In a function body that the compiler accepts, a local object is constructed when control reaches its declaration and destroyed when control leaves its scope, whatever the way: the end of the block, a return, a break, continue or goto forwards or backwards, or an exception. No constructor runs on an object that exists, no destructor on one that does not, and objects are destroyed in the reverse order of their construction. Whenever an expression is evaluated the existing local objects are exactly those declared before it in the blocks around it, besides its own temporaries; when the function has been left, none is left. Temporaries for arguments and results are destroyed at the end of their expression.", "quantifier": "all function bodies with any nesting of blocks, conditions, loops, labels and gotos, any temporaries, and all paths through them, with exceptions at any expression or constructor", "why_tests_cant": "The paths through a body with gotos and exceptions are unbounded, and a missing or repeated destructor call usually shows only as a leak or a use after free elsewhere.", "anchors": ["src/InitTweak/FixInit.cpp:LabelFinder", "src/InitTweak/FixInit.cpp:InsertDtors", "src/InitTweak/FixInit.cpp:SplitExpressions", "src/InitTweak/FixInit.cpp:ResolveCopyCtors", "src/InitTweak/FixInit.cpp:FixInit", "libcfa/prelude/builtins.c:__Destructor"]}
{"id": "C93", "title": "A ready thread is not left behind while the processors sleep", "statement": "When a thread is made ready on a cluster (created, unparked, or woken from a lock) it is run: there is never a moment after which a thread is ready, the cluster has processors, but nothing happens because all of its processors sleep and nobody is going to wake one. In particular a processor that is going to sleep while a thread is made ready either sees the thread or is woken up, and threads made ready in quick succession are all run although only one processor is woken.", "quantifier": "all numbers of processors, lanes and threads making others ready, all interleavings of going to sleep, searching, making ready, waking and destroying processors, and all random numbers used by the search", "why_tests_cant": "a lost wake-up needs one interleaving of a handful of instructions in different kernel threads, or one random number in billions; a test that hangs once in a month does not find it", "anchors": ["libcfa/src/concurrency/kernel.cfa: main(processorCtx_t &), __schedule_thread, __wake_one, __wake_proc, idle_sleep, mark_idle, mark_awake", "libcfa/src/concurrency/ready_queue.cfa: push, try_pop, search", "libcfa/src/concurrency/kernel/startup.cfa: ^?{}(processor &)"]}
{"id": "C94", "title": "Each initializer is resolved for the subobject it initializes", "statement": "In an initializer of an object with members or elements, every expression is resolved (chosen among overloads, converted) for the type of the subobject that C's rules say it initializes: without a designation the next subobject in order, where braces may be left out and an expression of an aggregate's type initializes the whole aggregate; with a designation the designated one; and a braced list is for the subobject that is next or designated. Initializers that C allows are accepted.", "quantifier": "all object types nested from structures, unions, arrays and scalars, and all initializers with any nesting of braces, left out braces and designations", "why_tests_cant": "the positions reachable by mixing designations, braces and left out braces are unbounded; a wrong position shows only when the types of the neighbouring members differ", "anchors": ["src/ResolvExpr/CurrentObject.cpp: MemberIterator, createMemberIterator, CurrentObject::findNext, setNext, increment, enterListInit, exitListInit", "src/ResolvExpr/Resolver.cpp: Resolver::previsit(SingleInit), previsit(ListInit)"]}
{"id": "C95", "title": "Integers are printed as the numerals asked for", "statement": "Printing an integer of any width, plainly or through a manipulator (base, width, precision, justification, sign, base prefix, zero padding), prints as one value a field of at least the width, holding sign, base prefix and digits that denote exactly that integer, with at least as many digits as the precision and padding only where asked for.", "quantifier": "all 64-bit and 128-bit signed and unsigned values, all conversions b B o d u x X, all combinations of flags, all widths and precisions, and all states of the output stream", "why_tests_cant": "There are 2^128 values; 128-bit numbers are printed in up to three chunks, and the defects sit at values where the chunks split (2^64, 10^19, 10^38), where a chunk has its top bit set or is a power of ten, and at particular combinations of width, precision and flags, which a table of samples misses.", "anchors": ["libcfa/src/iostream.cfa: base10_128, INTEGRAL_FMT_IMPL, base_128, INTEGRAL_FMT_IMPL128, IntegralFMTDecl", "libcfa/src/iostream.hfa: _Ostream_Manip", "libcfa/src/bitmanip.hfa: high1", "libcfa/src/fstream.cfa: fmt, sepOn, nosep"]}
{"id": "C96", "title": "Separators and newlines are printed where they belong", "statement": "Output statements print the text of each operand in order, a separator between two operands printed on the same line exactly if separators are on, the first allows one after it and the second one before it (numbers do, characters and empty strings do not, strings depending on punctuation and white space at their ends), or as requested by sep and nosep; the tuple separator inside tuples; and one newline for each statement that has printed something and not ended it with nl or nonl, if automatic newlines are on. No separator begins a line.", "quantifier": "all sequences of output statements, with any numbers, strings, characters, tuples and manipulators, and any separators", "why_tests_cant": "The decision at each operand depends on four flags left by everything printed before it; the known tests exercise a few dozen sequences, while the defects need particular sequences (a character, then sep, on a line begun by characters; sep first of all; sepOn in mid line).", "anchors": ["libcfa/src/iostream.cfa: ?|?, nl, nonl, sep, nosep, sepOn, sepOff, sepVal, sepTupleVal", "libcfa/src/iostream.hfa: OSTYPE_VOID_IMPL", "libcfa/src/fstream.cfa: sepPrt$, sepReset$, sep, nosep, sepOn, sepOff, ends, fmt"]}
{"id": "C97", "title": "Arithmetic expressions have the types of C", "statement": "An expression built with the arithmetic, bitwise, shift and comparison operators, casts and conditionals from variables of basic types compiles without ambiguity, in whatever order the operators were declared; each operator is the version nearest to its operands, nothing is narrowed except by an explicit cast, and operands and result have the types C's integer promotions and usual arithmetic conversions give them. Conversions counted as safe keep the value.", "quantifier": "all expressions of any shape and size over variables of the 36 basic types, all orders of declaration of the operators", "why_tests_cant": "Expressions are unbounded, and the choice at every node depends on costs accumulated over the whole expression.", "anchors": ["src/ResolvExpr/ConversionCost.cpp: costMatrix, signMatrix, conversionCost", "src/ResolvExpr/CommonType.cpp: commonTypes", "src/ResolvExpr/CandidateFinder.cpp: Finder::postvisit, pruneCandidates, computeApplicationConversionCost", "src/ResolvExpr/Resolver.cpp: findUnfinishedKindExpression, resolveInVoidContext", "libcfa/prelude/prelude-gen.cc: basicTypes, arithmeticOperators"]}
{"id": "C98", "title": "Integer constants have the value and the type they denote", "statement": "An integer constant, in decimal, octal, hexadecimal or binary, with underscores anywhere between its digits and with any suffix, has the number its digits denote and the type C gives it for its base, suffix and size; the suffixes of Cforall give the type they name, up to 128 bits. The constant the compiler uses for array dimensions and enumerators is the same number. A constant too large for 128 bits is rejected.", "quantifier": "all integer constants: any base, any number of digits, all suffixes in both cases, underscores anywhere", "why_tests_cant": "There are more than 2^128 constants, and the value is assembled from pieces whose boundaries depend on the number of digits, the base and the suffix.", "anchors": ["src/Parser/ExpressionNode.cpp: build_constantInteger, lnthSuffix, valueToType, scanbin", "src/Parser/lex.ll: rm_underscore, decimal, octal, hex, binary, integer_suffix", "src/AST/Expr.cpp: ConstantExpr::intValue"]}
{"id": "C99", "title": "Names denote the declarations that are in scope", "statement": "At every point of a program, a type, a structure, union, enumeration or trait, and an identifier of a given type denote what the innermost open scope with a declaration of them says; closing a scope gives every name back the meaning it had when the scope was opened. A with clause makes the members of its objects visible, also through unnamed members, and a member it has twice cannot be used, but is not an error otherwise. Two definitions of one thing in one scope, two C functions with one name, and a C and a Cforall version of one function are rejected; nothing else is.", "quantifier": "all sequences of declarations, with clauses and nested scopes, of any length and depth", "why_tests_cant": "Programs and their nesting are unbounded, and scopes are saved only when something is declared in them, so the table depends on the whole history.", "anchors": ["src/AST/SymbolTable.cpp: enterScope, leaveScope, lazyInitScope, atScope, addType, addStruct, addIdToTable, addedIdConflicts, addMembers, lookupId", "src/AST/Pass.impl.hpp: visit( const ast::FunctionDecl * )"]}
{"id": "C100", "title": "Constructors, destructors and assignments that can be used", "statement": "Of the constructors (likewise destructors, assignments) declared for a type in a scope, exactly these can be used: those the user has written, except those written to be deleted; the generated copy function unless the user has written one that copies; the other generated functions unless the user has written any; and built-in ones unless the user has written the same one. Where the user has written a function, it is the one found. The order of the declarations does not matter.", "quantifier": "all sequences of declarations, of any length and in any order, of generated, built-in and user functions", "why_tests_cant": "Each declaration changes what is known about the earlier ones, so the result is reached by a different path for every order of any number of declarations.", "anchors": ["src/AST/SymbolTable.cpp: removeSpecialOverrides, addIdToTable, addedIdConflicts, specialLookupId, getOtypeKey", "src/InitTweak/InitTweak.cpp: isCopyFunction", "src/Validate/Autogen.cpp: FuncGenerator, EnumFuncGenerator"]}
{"id": "C101", "title": "Multi-precision integers are the integers", "statement": "The operators for multi-precision integers give exact results, for two of them and for one and a C integer on either side: sums, differences and products; quotients that truncate with the remainders that belong to them; bitwise operators on the infinite two's complement representation; shifts; and comparisons by value. Division by zero stops the program, and nothing else does. Compound assignments, increments and decrements change the variable accordingly. An assignment to a C integer keeps a value the type has. Printing goes to the stream it is asked for.", "quantifier": "all integers of any size, all C integers, all operators and all combinations of operand types", "why_tests_cant": "There are infinitely many values; the overloads for C integers take other paths for negative, very large and limiting values.", "anchors": ["libcfa/src/gmp.hfa: ?+?, ?-?, ?*?, ?/?, ?%?, div, ?&?, ?|?, ?^?, ?<?, ?<=?, ?>?, ?>=?, ?==?, ?<<?, ?>>?, ?=?"]}
{"id": "C102", "title": "A tuple assignment assigns all its components at once", "statement": "In a multiple assignment [a, b] = [c, d] the left side is evaluated once from left to right, then the right side once from left to right, each right-hand component is read when it is evaluated, and then all places on the left change at once, from the values they had: [x, y] = [y, x] swaps. Nesting does not matter, only the number of components does, and it must agree. In a mass assignment [a, b] = c the right side is evaluated once and its one value goes to every place. The same holds for the other assignment operators. The outcome does not depend on the order in which the generated code makes the assignments.", "quantifier": "all left and right sides built from objects, subscripts, calls with any effect, member tuples and nested tuples, all memories, and all evaluation orders of the generated C code", "why_tests_cant": "The sides can be arbitrarily nested and have arbitrary effects and aliases, and C leaves the order of the generated assignments open, so a test only ever sees one of the orders.", "anchors": ["src/Tuples/TupleAssignment.cpp: spot, MassAssignMatcher::match, MultipleAssignMatcher::match, newObject, createFunc", "src/Tuples/Explode.hpp: explodeUnique", "src/Tuples/Explode.cpp: distributeReference", "src/Tuples/TupleExpansion.cpp: MemberTupleExpander, UniqueExprExpander, replaceTupleExpr", "src/Tuples/Tuples.cpp: maybeImpureIgnoreUnique"]}
{"id": "C103", "title": "Control among coroutines goes where the history says", "statement": "resume goes to the coroutine resumed and is an error if that has ended; suspend goes to the latest resumer; the end of a coroutine's main goes to its first resumer; prime starts a coroutine and comes back; destroying a coroutine that has begun and not ended runs its clean-up and comes back; when a coroutine is cancelled its clean-up runs, control goes to its latest resumer, and a CoroutineCancelled exception naming it is raised there, once. Clean-up is never cut short. At any time exactly one coroutine of the thread is active, and it has not ended. Exceptions sent with resumeAt are raised in the receiving coroutine by its polls, in the order sent, once each, and by checked polls only while it has enabled them.", "quantifier": "all finite sequences of resume, prime, suspend, return, cancellation, destruction, resumeAt, poll and enable/disable by any number of coroutines of a thread", "why_tests_cant": "The runtime keeps only three pointers per coroutine; whether they always amount to the history of resumes shows only over unbounded patterns of full coroutines resuming each other.", "anchors": ["libcfa/src/concurrency/coroutine.hfa: $ctx_switch, __cfactx_suspend, resume", "libcfa/src/concurrency/coroutine.cfa: prime, ^?{}, __cfactx_cor_leave, __cfactx_cor_finish, __cfaehm_cancelled_coroutine, poll, checked_poll, resumeAt", "libcfa/src/concurrency/exception.cfa: coroutine_cancelstop, __cfaehm_cancellation_unwind", "libcfa/src/concurrency/invoke.c: __cfactx_invoke_coroutine, __cfactx_coroutine_unwindstop"]}
{"id": "C104", "title": "Every I/O request reaches the kernel once and gets its own answer", "statement": "A request of the asynchronous I/O calls is taken by the kernel exactly once, in the order requests were listed, however many processors submit and help and however little of a submission the kernel takes at a time; its future is fulfilled with the result of that request, in the order of the completions. A request gets a submission entry that nobody else has; if none is left it waits, and is given one when entries become free. After a drain no completed request has an unfulfilled future.", "quantifier": "all ring sizes; all finite histories of requests, submissions from the own and from other processors, flushes, answers of the kernel (refusal or any number taken), completions in any order, and drains", "why_tests_cant": "The ring counters wrap around, entries are reused in the order the kernel frees them, and the kernel may take any part of a submission; tests see few of these histories, and rarely fill a ring.", "anchors": ["libcfa/src/concurrency/io.cfa: __alloc, cfa_io_allocate, __submit_only, cfa_io_submit, ioring_syscsll, __release_sqes, __cfa_do_flush, __cfa_do_drain, __ioarbiter_notify, __ioarbiter_submit, __ioarbiter_flush", "libcfa/src/concurrency/io/setup.cfa: __io_uring_setup", "libcfa/src/concurrency/io/types.hfa: __sub_ring_t, __cmp_ring_t"]}
{"id": "C105", "title": "Thread-specific data is per thread, and every value's destructor is called once", "statement": "pthread_getspecific answers the value the calling thread has last set for the key since the key was made, or null; pthread_key_create answers a key that does not exist, or EAGAIN if all do; pthread_setspecific and pthread_key_delete succeed exactly for keys that exist. When a thread has ended, the destructor of every key for which it has a value other than null is called once, by that thread, with that value. Joining a thread, by pthread_join or pthread_tryjoin_np, answers the value it ended with; the second never blocks.", "quantifier": "all numbers of keys and threads; all finite histories of key creation and deletion, sets and gets by any threads, ends of threads, joins, and steps of the deletion of an ended thread's data, in any order", "why_tests_cant": "The deletion of a thread's values runs beside other threads that make and delete keys, and gives up its lock for each destructor; tests see few of these orders, and rarely run out of keys.", "anchors": ["libcfa/src/concurrency/pthread.cfa: pthread_deletespecific_, pthread_key_create, pthread_key_delete, pthread_setspecific, pthread_getspecific, pthread_create, pthread_join, pthread_tryjoin_np, pthread_exit"]}
{"id": "C106", "title": "References are followed exactly as often as their types say", "statement": "For every expression the compiler accepts, with references of any depth, the C it is turned into is valid and has the value and the effects its types say: a T & ... & used as a T is followed to the object, assigned to it changes that object alone, given to a reference parameter it is the address of that object; &r is the address of the object r refers to, and &r = p makes the innermost reference of r refer to what p points to.", "quantifier": "all expressions of variables, constants, &, *, =, +, ?:, calls and casts, of any size; all reference depths; all stores and all functions called", "why_tests_cant": "The rewriting works in six passes that add and cancel & and * by counting levels; each further level of & or of reference is a new combination, and tests have three levels at most and few forms.", "anchors": ["src/GenPoly/Lvalue.cpp: FixIntrinsicResults, AddressRef, ReferenceConversions, FixIntrinsicArgs, CollapseAddressDeref, convertLvalue", "src/AST/Expr.cpp: addrType, addrExprType, get_lvalue"]}
{"id": "C107", "title": "A configuration file sets the variables of its entries", "statement": "parse_config with the tabular format reads from the file exactly the keys and values its lines have (comments, blank lines and the rest of a line skipped), sets the variable of each entry whose key is in the file to its value and no other variable, in whatever order the lines are; it reports the first value that does not parse or does not pass validation, or the number of entries that are not in the file; strings are kept in storage large enough for them and alive as long as the variable that holds them.", "quantifier": "all texts of a file, all lists of entries with any parse and validate functions, all initial values of the variables", "why_tests_cant": "A file is any text: line ends, blank lines, comments, lengths, repeated and missing keys combine without bound, and a test has a few files; the bytes written past a block are invisible to it.", "anchors": ["libcfa/src/parseconfig.cfa: parse_config, parse_tabular_config_format, comments, add_kv_pair", "libcfa/src/parseconfig.hfa: config_entry, KVPairs", "libcfa/src/iostream.cfa: ?|?( istype &, _Istream_Cstr ), nl", "libcfa/src/parseargs.cfa: parse"]}
{"id": "C108", "title": "Command-line options set their variables", "statement": "parse_args accepts every command line made of uses of the given options (short or long name, argument in the same word or the next), operands and -- in any order: each use sets the variable of its option and no other to what its argument parses to, and the operands are left in order; -h and --help print the usage and end with 0, a letter that is no option or an argument that cannot be parsed ends with 1, and two options with one name are refused. Numbers are accepted for int and the unsigned types exactly when they are C numbers in range. The help text of every option is printed whole.", "quantifier": "all lists of options with any parse functions, all command lines made of them, all argument strings, all widths of a terminal", "why_tests_cant": "Options, spellings and orders combine without bound, and each number type has a set of accepted strings that is infinite; the tests run a dozen command lines.", "anchors": ["libcfa/src/parseargs.cfa: parse_args, check_args, parse, strict_strtoull, parse_yesno, parse_truefalse, printopt", "libcfa/src/parseargs.hfa: cfa_option"]}
{"id": "C109", "title": "Preemption: no switch in a section, no signal lost, every alarm rings", "statement": "However the preemption signal arrives between the steps of the runtime, a processor is given to another thread only when user code has called enable_interrupts as often as disable_interrupts. A signal that arrives outside all sections makes a switch before user code goes on; one that arrives in a section makes a switch by the time the section has ended; a pending one makes a switch at the next poll outside sections; and the routines return to user code. Whatever alarms are set, removed and served, every alarm that is set has SIGALRM on its way or the timer armed for its deadline, a tick lets off exactly the alarms whose deadline is past, and the periodic ones are set again; the first preemption comes one preemption rate after the processor starts.", "quantifier": "all executions of one processor with signals between any two steps, any nesting of sections; all histories of setting, removing and serving alarms and of time passing", "why_tests_cant": "A signal may arrive between any two instructions, any number of times; tests cannot place signals, and lost ticks only make programs slower.", "anchors": ["libcfa/src/concurrency/preemption.cfa: disable_interrupts, enable_interrupts, poll_interrupts, preemption_ready, sigHandler_ctxSwitch, tick_preemption, update_preemption", "libcfa/src/concurrency/kernel.cfa: force_yield", "libcfa/src/concurrency/alarm.cfa: __kernel_set_timer, register_self, unregister_self"]}
{"id": "C110", "title": "Enumerators have their position, label and value, loops visit each once, and conversion keeps the name", "statement": "In an enumeration of CFA the enumerators are numbered from 0 in their order; posn, label and value of each are its number, its name, and the value written for it, or one more than the one before, or 0 for the first. succ and pred give the next and the one before and abort exactly at the ends, fromInt accepts exactly the numbers of enumerators, countof is how many there are, and a loop over the enumeration runs once for each in order (or reverse order) and ends. An enumerator of an inline enumeration has the value it has in its own, and conversion from an enumeration to one that has it inline, at any depth, gives the enumerator of the same name.", "quantifier": "all enumerations with any number of enumerators, values, base integer types and inline enumerations nested to any depth; all their enumerators and all integers", "why_tests_cant": "Enumerations, their orders and nestings have no bound; the tests have one enumeration with inline enumerations, in which those come first and all values are written.", "anchors": ["src/Validate/ImplementEnumFunc.cpp: genValueInit, getAutoInit, genLabelInit, genPosnBody, genSuccPredBody, genBoundedBody", "src/Validate/EnumAndPointerDecay.cpp: EnumAndPointerDecayCore", "src/CodeGen/CodeGenerator.cpp: postvisit(EnumDecl)", "src/ControlStruct/TranslateEnumRange.cpp: TranslateEnumRangeCore", "src/ResolvExpr/CandidateFinder.cpp: makeEnumOffsetCast, findChildOffset", "libcfa/prelude/builtins.c: fromInt, succ, pred, Countof"]}
{"id": "C111", "title": "A string stream keeps what is printed within its buffer, in order, and reads back the words of a buffer", "statement": "After any sequence of prints, writes and clears on a string output stream, the start of the buffer is the text printed since the last write or clear, followed by a null character after a print; the file has the texts that were written, whole and in order; the program aborts exactly when a text and its null character do not fit; and nothing outside the buffer is ever changed. From a string input stream over a buffer of words, reads give the words in their order, whatever white space stands around them, a read of a character takes one character, and the end of the buffer is reported as it is for a file.", "quantifier": "all buffers, sizes and sequences of prints, writes and clears with any texts; all lists of words and the white space around them", "why_tests_cant": "Histories and texts have no bound; the tests print and read back a few values with single spaces.", "anchors": ["libcfa/src/strstream.cfa: ostrstream constructor, fmt, write, clear, istrstream fmt, eof", "libcfa/src/strstream.hfa: ostrstream, istrstream", "libcfa/src/iostream.cfa: ?|?( istype & is, char & c )"]}
{"id": "C112", "title": "Reading a string, an enumerator or a large integer stores what is in the input, within its argument, and loses nothing", "statement": "A read into a character array never changes anything after the array, and with ignore changes nothing. A word, a line, the characters in or not in a set, or a quoted string that fits the array with its null character is stored whole and only its delimiter, if any, is removed from the input; one that does not fit raises cstring_length, stores as much as fits, and the rest stays in the input. With a read width exactly that many characters are taken. At the end of the input end_of_file is raised and the argument keeps its value; the lines of a file are all read, in order, and then the end. Reading an enumerator gives the one whose label is in the input and leaves what follows it. Reading an integer of 128 bits gives the number in the input, or missing_data if there is none, and writes only to its variable.", "quantifier": "all inputs, array sizes, read widths, delimiters, scan sets, enumerations with any labels, and all numerals", "why_tests_cant": "Inputs, arrays and label sets have no bound, and the failures are at exact widths, ranges and ends of input; the tests read one prepared file.", "anchors": ["libcfa/src/iostream.cfa: ?|?( istype &, _Istream_Cstr ), ?|?( istype &, _Istream_Cquote ), ?|?( istype &, E & ), ?|?( istype &, unsigned int128 & ), nl", "libcfa/src/iostream.hfa: _Istream_str_base, wdi, getline, quote, incl, excl, ignore"]}
{"id": "C113", "title": "A parallel loop runs its body once for each iteration and ends when all have run", "statement": "COFOR calls its body exactly once for each number from low up to high, for all bounds, on as many tasks as processors or numbers, whose shares differ by at most one. When a cofor statement ends, its body has been run exactly once for each iteration of the loop, whatever the schedule of the runners and of the thread that executes the statement; at no moment has it been run more than once for one; and the statement ends.", "quantifier": "all bounds, numbers of processors, numbers of iterations and schedules of the runners", "why_tests_cant": "Interleavings of the loop and the runners and the divisions of ranges have no bound; the test has one loop of ten iterations.", "anchors": ["libcfa/src/concurrency/cofor.cfa: __Cofor__, main( cofor_task & )", "libcfa/src/concurrency/cofor.hfa: COFOR, main( cofor_runner & ), start_runners, end_runners, send_work", "src/Concurrency/Corun.cpp: CorunKeyword::postvisit( const CoforStmt * )"]}
{"id": "C114", "title": "The mutex, recursive mutex and condition lock exclude, pass on in order and lose no wake-up", "statement": "Of the threads that use a mutex_lock at most one holds it; the threads get it in the order in which they asked; lock returns at once and try_lock succeeds exactly if nobody holds it; a thread that sleeps in lock is given the mutex when it is its turn, and no thread sleeps for a free mutex. A recursive_mutex_lock does the same, and its owner keeps it until it has unlocked it as often as it locked it. wait gives up the lock, a thread that waits sleeps until it is notified and has the lock when wait returns, notify_one wakes the thread that has waited longest and notify_all wakes all.", "quantifier": "all schedules of any number of threads calling lock, try_lock, unlock, wait, notify_one and notify_all", "why_tests_cant": "Interleavings have no bound, and a lost wake-up or an overtaken thread needs a particular one.", "anchors": ["libcfa/src/concurrency/mutex.cfa: lock, try_lock, unlock, wait, notify_one, notify_all", "libcfa/src/concurrency/mutex.hfa: mutex_lock, recursive_mutex_lock, cond_lock"]}
{"id": "C115", "title": "An array declared without a length gets the length of its initializer", "statement": "An array that is declared without a length and initialized with string literals has as many elements as the string has characters, however they are written (themselves, simple, octal and hexadecimal escape sequences, adjacent literals, encodings), and one for the null character; literals with different encodings are rejected. One that is initialized with a list has one more than the largest index that is given a value, as in C. An array with a length keeps it.", "quantifier": "all string literals, sequences of literals, escape sequences, encodings and lists of initializers", "why_tests_cant": "Texts and lists have no bound; the tests contain few literals and do not check the sizes of the arrays.", "anchors": ["src/Parser/ExpressionNode.cpp: build_constantStr, sequenceLength, sepString", "src/Parser/parser.yy: appendStr, string_literal_list", "src/Validate/InitializerLength.cpp: makeDimension, InitializerLength::previsit"]}
{"id": "C116", "title": "The compiler's values of character constants and enumerators are those of C", "statement": "Where the compiler needs the value of a character constant or an enumerator itself (the index of a designator, the comparison of array dimensions), the value it uses is the one C gives it, for every way to write the character and for every enumeration; it knows the value of each enumerator if it knows those of the initializers, and it always gets an answer.", "quantifier": "all character constants and all enumerations with initializers that are known, unknown or name earlier enumerators", "why_tests_cant": "Constants and enumerations have no bound; no test uses an escape sequence in a designator or an enumerator of unknown value in another.", "anchors": ["src/Parser/ExpressionNode.cpp: build_constantChar", "src/AST/Decl.cpp: EnumDecl::valueOf", "src/Common/Eval.cpp: eval", "src/ResolvExpr/CurrentObject.cpp: IndexIterator::setPosition", "src/ResolvExpr/Unify.cpp: tryMatchOnStaticValue"]}
{"id": "C117", "title": "Lists of processors are read completely and the tables of the run-time have room for them", "statement": "Iterating over a list of numbers and ranges such as 0-3,8 gives exactly its numbers, in order, and then ends; the width of the list is how many they are; and at the start of a program the run-time finds all processors of the system's list and has room for each of them in its tables, whichever processors are on-line.", "quantifier": "all lists of numbers and ranges, and all sets of processors that are on-line", "why_tests_cant": "The lists have no bound, and tests run on machines on which all processors are on-line, so no number is beyond the count.", "anchors": ["libcfa/src/algorithms/range_iterator.cfa: main(RangeIter &)", "libcfa/src/algorithms/range_iterator.hfa: moveNext", "libcfa/src/device/cpu.cfa: read_value, read_width, count_cpus, build_raw_cache_table"]}
{"id": "C118", "title": "The map of processors groups those that share a last-level cache", "statement": "After the start of a program, cpu_info has for each processor an entry with a place that no other processor has; two processors have the same cache number exactly if they share their last-level cache, and the places from start on, as many as count, are those of the processors that share the cache.", "quantifier": "all numbers of processors, all ways to share caches, and all orders the sort may give to processors of the same cache", "why_tests_cant": "The topologies have no bound and a test runs on the one of its machine; the sort is not stable, so its order is not that of every library.", "anchors": ["libcfa/src/device/cpu.cfa: distinct_llcs, get_cpu_pairings, foreach_cacheidx, __cfaabi_device_startup", "libcfa/src/device/cpu.hfa: cpu_map_entry_t, cpu_info_t"]}
