{"id": "C01", "title": "next_pow2 is the least power of two not below its argument", "statement": "For every u64 x with 1 <= x <= 2^63, Math::next_pow2(x) is a power of two, is >= x, and every power of two >= x is >= it.", "quantifier": "all u64 x in [1, 2^63]", "why_tests_cant": "2^63 inputs; a wrong boundary shows only at exact powers of two or one above them", "anchors": ["rpp/math.h: next_pow2", "rpp/impl/math.cpp:131-172 next_pow2, ctlz"]}
{"id": "C02", "title": "log2, ctlz and prev_pow2 agree with the mathematical floor logarithm", "statement": "For every nonzero u64 x, Math::log2(x) is the k with 2^k <= x < 2^(k+1), Math::ctlz(x) = 63 - k, and Math::prev_pow2(x) is the greatest power of two <= x.", "quantifier": "all nonzero u64 x (also the 32-bit overloads)", "why_tests_cant": "the statement ranges over the complete u64 domain including the highest bit", "anchors": ["rpp/impl/math.cpp:131-172 ctlz, log2, prev_pow2"]}
{"id": "C03", "title": "align rounds up to the next multiple", "statement": "For every x and non-zero alignment a such that the rounded value fits in 64 bits, Math::align(x,a) is the least multiple of a that is >= x; Math::align_pow2 returns the same value whenever a is a power of two; align_down gives the greatest multiple <= x.", "quantifier": "all u64 x, a with a != 0 and no overflow", "why_tests_cant": "pairs of 64-bit words cannot be enumerated and the failing cases are at the top of the range", "anchors": ["rpp/math.h:141-171 align, align_down, align_pow2"]}
{"id": "C04", "title": "Integer pow computes the power", "statement": "For every base and exponent whose mathematical power is representable in the result type, Math::pow(base, exp) returns exactly that power, without undefined behaviour; for unsigned types the result is the power modulo 2^w for every exponent.", "quantifier": "all bases and all exponents of the type", "why_tests_cant": "the loop runs a data dependent number of iterations; intermediate overflow only shows in a few (base, exponent) pairs", "anchors": ["rpp/math.h:63-74 pow"]}
{"id": "C05", "title": "Integer hashing never collides", "statement": "Distinct 64-bit integers have distinct hashes: Hash::squirrel5 is a bijection on u64, so hashing u64 keys is injective.", "quantifier": "all pairs of u64 values", "why_tests_cant": "2^128 pairs", "anchors": ["rpp/hash.h:14-31 squirrel5", "rpp/hash.h Hash::Hash<Int>"]}
{"id": "C06", "title": "Stored hashes never equal the reserved empty marker", "statement": "hash_nonzero(k) is never 0 for any key, agrees with hash(k) on every bit but the lowest, and hash_literal is never 0 for any literal.", "quantifier": "all keys / all byte strings", "why_tests_cant": "a zero hash would be one input among 2^64", "anchors": ["rpp/hash.h:87-103 hash_nonzero, hash_literal", "rpp/map.h:15-64 Map_Slot::EMPTY"]}
{"id": "C07", "title": "Equal keys have equal hashes", "statement": "Whenever two strings compare equal with operator==, rpp::hash of both gives the same value (needed for strings to be map keys).", "quantifier": "all pairs of byte strings, of every length and content", "why_tests_cant": "unbounded strings; failing pairs need embedded NUL bytes", "anchors": ["rpp/string0.h:199-233 operator==", "rpp/string0.h:283-301 Hash<String>, Hash<String_View>"]}
{"id": "C08", "title": "Combining hashes is insensitive to argument order and deterministic", "statement": "hash(a, b, ...) is a function of the arguments' hashes only, hash_combine is commutative, and therefore hash(a,b) = hash(b,a) for all a, b: permuted tuples always collide.", "quantifier": "all values a, b", "why_tests_cant": "statement about all pairs of values", "anchors": ["rpp/hash.h:33-35 hash_combine", "rpp/hash.h:92-95 hash(Ts...)"]}
{"id": "C09", "title": "shuffle permutes", "statement": "RNG::Stream::shuffle leaves the vector with exactly the same multiset of elements and the same length and never indexes out of bounds, for every generator state and every vector including the empty one.", "quantifier": "all element sequences and all generator states", "why_tests_cant": "64-bit generator state times all vectors; the empty vector and unlucky draws are easy to miss", "anchors": ["rpp/rng.h: shuffle", "rpp/rng.h: Stream::integer"]}
{"id": "C10", "title": "range stays in range", "statement": "RNG::Stream::range(min,max) with min < max returns a value v with min <= v < max for every generator state, for signed and unsigned integer types.", "quantifier": "all min < max of the type, all generator states", "why_tests_cant": "the violating draws depend on the high bit of a 64-bit pseudo random word", "anchors": ["rpp/rng.h: range"]}
{"id": "C11", "title": "unit covers the unit interval", "statement": "RNG::Stream::unit<f32>() and unit<f64>() return values in [0,1) whose spacing is 2^-24 (2^-53): the value is the draw's high bits scaled so that the largest draw maps to 1 - 2^-24 (1 - 2^-53), and coin_flip(p) is true with frequency p.", "quantifier": "all generator states", "why_tests_cant": "statistical statement over all 2^64 draws", "anchors": ["rpp/rng.h: unit, coin_flip"]}
{"id": "C12", "title": "Vec behaves as a sequence", "statement": "After any sequence of push/emplace/pop/clear/resize/reserve/index-write operations, length, indexing, front, back and iteration of a Vec give exactly what the same operations give on a mathematical list; operations outside their precondition stop with an assertion instead of touching memory.", "quantifier": "all finite operation sequences from the empty or any-capacity vector, all element values", "why_tests_cant": "histories interleave growth with removal in unboundedly many ways", "anchors": ["rpp/vec.h:99-198 grow, clear, reserve, resize, push, emplace, pop", "rpp/vec.h operator[], front, back, begin, end"]}
{"id": "C13", "title": "Vec owns each element exactly once", "statement": "For any history of a Vec of non-trivial elements ending with its destruction, every element constructed into it is destroyed exactly once, no element is used after destruction, no uninitialised storage is read, and every buffer obtained from the allocator is returned exactly once.", "quantifier": "all operation histories incl. move-assign and clone", "why_tests_cant": "leaks and double destruction do not change the values a test reads", "anchors": ["rpp/vec.h: ~Vec, operator=(Vec&&), clone, reserve, pop, clear, resize"]}
{"id": "C14", "title": "Vec push of an own element is safe", "statement": "v.push(v[i]) appends a copy of the old v[i] even when the push reallocates.", "quantifier": "all vectors, all valid i, all capacities", "why_tests_cant": "only wrong when length == capacity and the old buffer has been reused", "anchors": ["rpp/vec.h:168-181 push"]}
{"id": "C15", "title": "Stack is last-in first-out", "statement": "After any sequence of pushes and pops, top() is the most recent not yet popped pushed element and pop removes exactly it; length counts the not yet popped pushes.", "quantifier": "all push/pop histories", "why_tests_cant": "unbounded histories", "anchors": ["rpp/stack.h: push, pop, top, length"]}
{"id": "C16", "title": "Queue is first-in first-out across wrap-around and growth", "statement": "After any sequence of push/emplace/pop/clear/reserve, the queue holds exactly the not yet popped elements in insertion order: front() is the oldest, back() the newest, penultimate() the one before it, operator[](i) the i-th oldest, iteration lists all of them in order, and length() counts them.", "quantifier": "all operation histories, all capacities", "why_tests_cant": "the ring offset at the time of growth depends on the whole history", "anchors": ["rpp/queue.h:96-238", "rpp/queue.h:335-346 start_idx, end_idx, idx_at", "rpp/queue.h Iterator"]}
{"id": "C17", "title": "Queue owns each element exactly once", "statement": "For any history of a Queue of non-trivial elements ending in destruction, each element is destroyed exactly once, none is read or destroyed while dead, none is overwritten while live.", "quantifier": "all operation histories", "why_tests_cant": "ownership errors do not show in values", "anchors": ["rpp/queue.h: ~Queue, pop, clear, reserve, push, emplace"]}
{"id": "C18", "title": "Queue clone copies the queue", "statement": "q.clone() is a queue holding the same elements in the same order as q and leaves q unchanged, for every element type, every ring offset and every fill level.", "quantifier": "all reachable queues (all offsets, lengths, capacities), trivially copyable and not", "why_tests_cant": "depends on the ring offset and on the element type's copy path", "anchors": ["rpp/queue.h:67-94 clone"]}
{"id": "C19", "title": "Queue erase_first removes the first match", "statement": "q.erase_first(x) removes the oldest element equal to x, keeps all others in order, and does nothing when there is no match.", "quantifier": "all reachable queues and all x", "why_tests_cant": "depends on position of the match and ring offset", "anchors": ["rpp/queue.h:240-269 erase_first"]}
{"id": "C20", "title": "Heap top is a minimum", "statement": "After any sequence of push/pop (and construction from a list), top() is an element of the heap that no other element is less than, and the heap holds exactly the multiset of pushed minus popped elements.", "quantifier": "all histories, any strict weak order, duplicates included", "why_tests_cant": "the array shape depends on the entire history", "anchors": ["rpp/heap.h:138-174 push, pop, top", "rpp/heap.h:205-252 reheap_up, reheap_down"]}
{"id": "C21", "title": "Draining a heap sorts", "statement": "Popping a heap until it is empty yields every element once, in non-decreasing order.", "quantifier": "all reachable heaps, all strict weak orders", "why_tests_cant": "n! input orders", "anchors": ["rpp/heap.h: pop, top, empty"]}
{"id": "C22", "title": "Map lookups return the last inserted value", "statement": "After any sequence of insert/erase/try_erase/clear/reserve/get_or_insert (default growth from empty, any hash function consistent with ==), try_get/get/contains of key k return the value most recently inserted for k and not erased since, and nothing when there is none.", "quantifier": "all operation histories, all hash functions, all collision patterns", "why_tests_cant": "probe-chain layout depends on collision pattern and the whole history", "anchors": ["rpp/map.h:218-271 insert, try_get, try_erase", "rpp/map.h:407-462 insert_slot, fix_up, try_get_"]}
{"id": "C23", "title": "Map length counts the keys", "statement": "length() equals the number of distinct keys present, and empty() holds exactly when there is none.", "quantifier": "all operation histories", "why_tests_cant": "only wrong for particular histories such as re-inserting a key", "anchors": ["rpp/map.h:218-224 insert", "rpp/map.h: length, empty"]}
{"id": "C24", "title": "Map iteration visits every entry exactly once", "statement": "Iterating a Map yields each present key with its current value exactly once and nothing else.", "quantifier": "all reachable maps", "why_tests_cant": "depends on slot layout", "anchors": ["rpp/map.h:339-388 Iterator"]}
{"id": "C25", "title": "Erasing a key disturbs no other key", "statement": "erase(k)/try_erase(k) removes k (and reports whether it was present) and leaves the result of every other lookup unchanged.", "quantifier": "all reachable maps, all keys, all collision patterns", "why_tests_cant": "backward-shift deletion is only wrong for particular probe chains", "anchors": ["rpp/map.h:252-271 try_erase", "rpp/map.h:433-443 fix_up"]}
{"id": "C26", "title": "Growing a map preserves its contents", "statement": "reserve/grow at any time preserves every lookup result.", "quantifier": "all reachable maps, all target capacities", "why_tests_cant": "rehash order depends on layout", "anchors": ["rpp/map.h:155-177 reserve, grow"]}
{"id": "C27", "title": "Map operations terminate", "statement": "Every insert, lookup and erase on a reachable map returns (the probe loops end), whatever the keys, hashes and capacity the map was created with.", "quantifier": "all reachable maps, all constructor capacities", "why_tests_cant": "non-termination cannot be observed by finitely many terminating tests", "anchors": ["rpp/map.h:407-462", "rpp/map.h:80-87 Map(u64)"]}
{"id": "C28", "title": "Map clone has the same contents", "statement": "m.clone() answers every lookup as m does.", "quantifier": "all reachable maps incl. those sized with reserve", "why_tests_cant": "needs a reserve with an unusual capacity before the clone", "anchors": ["rpp/map.h:139-153 clone", "rpp/map.h:155-172 reserve"]}
{"id": "C29", "title": "get_or_insert returns the present or a fresh default value", "statement": "get_or_insert(k) returns the value bound to k if there is one, otherwise binds k to a default value, returns it, and changes no other binding.", "quantifier": "all reachable maps and keys", "why_tests_cant": "interaction with growth and displacement depends on layout", "anchors": ["rpp/map.h:319-337 get_or_insert"]}
{"id": "C30", "title": "Live ranges are disjoint and inside the heap", "statement": "After any sequence of allocate/free calls (each free of a live range), the ranges [offset, offset+length) of live allocations lie inside [0, heap_size) and are pairwise disjoint, and each is at least as long as requested.", "quantifier": "all allocation histories, sizes and alignments", "why_tests_cant": "fragmentation patterns are unbounded", "anchors": ["rpp/range_allocator.h:73-186 allocate, free"]}
{"id": "C31", "title": "Allocated ranges are aligned", "statement": "The offset returned by allocate(size, align) is a multiple of align.", "quantifier": "all states, sizes, alignments", "why_tests_cant": "depends on block position", "anchors": ["rpp/range_allocator.h:73-137 allocate"]}
{"id": "C32", "title": "Freeing everything restores the pristine heap", "statement": "After all live ranges are freed, in any order, the allocator has a single free block covering the entire heap (Stats::assert_clear passes) and can again serve a maximal request.", "quantifier": "all histories, all free orders", "why_tests_cant": "coalescing order is combinatorial", "anchors": ["rpp/range_allocator.h:139-213 free, statistics, assert_clear"]}
{"id": "C33", "title": "Allocation fails only for lack of a fitting block", "statement": "allocate returns nothing only if no free block that the size-class search considers can hold the size at the alignment; it never fails when some maximal free gap of length >= size+align-1 exists.", "quantifier": "all states and requests", "why_tests_cant": "needs the failing size class to be hit exactly", "anchors": ["rpp/range_allocator.h:73-137 allocate", "rpp/range_allocator.h:225-229 size_to_idx"]}
{"id": "C34", "title": "Range allocator statistics are exact", "statement": "statistics() reports allocated/free sizes and block counts that equal the sums over live ranges and free gaps; allocated_size + free_size = capacity; the totals of allocations and frees count the operations made and high_water is the largest allocated size seen so far.", "quantifier": "all histories", "why_tests_cant": "unbounded histories", "anchors": ["rpp/range_allocator.h:188-213 statistics, Stats"]}
{"id": "C35", "title": "Region memory stays valid until its scope ends", "statement": "Blocks allocated in a region scope are disjoint from every other live block of the thread and are neither reused nor freed before that scope ends, including while inner scopes come and go.", "quantifier": "all nestings of scopes and all allocation sizes", "why_tests_cant": "chunk boundaries and nesting interleave in unboundedly many ways", "anchors": ["rpp/impl/alloc.cpp:35-91 new_chunk, alloc, begin, end"]}
{"id": "C36", "title": "Ending a region scope releases exactly its allocations", "statement": "When a scope ends, the allocator's depth and usage return to their values at its beginning; what was allocated inside is released, what was allocated before is untouched, and all chunks are returned when the outermost scope ends.", "quantifier": "all properly nested histories", "why_tests_cant": "same", "anchors": ["rpp/impl/alloc.cpp:65-91 begin, end"]}
{"id": "C37", "title": "Allocating from a region that is not innermost is always caught", "statement": "An allocation or scope end carrying the brand of a scope that is not the innermost open one stops the program; it never returns memory of the wrong scope.", "quantifier": "all scope stacks with distinct brands", "why_tests_cant": "negative property over all histories", "anchors": ["rpp/impl/alloc.cpp:44-48 assert_brand", "rpp/alloc0.h Region_Scope, Mregion"]}
{"id": "C38", "title": "Free_List never hands out a live object", "statement": "Free_List::make returns storage that overlaps no object handed out and not yet destroyed, whatever the order of make/destroy; every block is obtained from and returned to the underlying allocator once.", "quantifier": "all make/destroy/clear histories", "why_tests_cant": "aliasing appears only for particular orders", "anchors": ["rpp/alloc0.h:118-184 Free_List"]}
{"id": "C39", "title": "String equality is equality of contents", "statement": "a == b (String and String_View in any combination) holds exactly when both have the same length and the same bytes.", "quantifier": "all pairs of byte strings", "why_tests_cant": "unbounded strings incl. embedded zero bytes", "anchors": ["rpp/string0.h:199-233 operator=="]}
{"id": "C40", "title": "String ordering is a strict total order", "statement": "operator< on strings is irreflexive, transitive, and trichotomous with respect to byte equality (lexicographic by unsigned byte), so strings can be heap elements.", "quantifier": "all triples of byte strings", "why_tests_cant": "unbounded", "anchors": ["rpp/string0.h:205-212,235-243 operator<"]}
{"id": "C41", "title": "Path splitting loses nothing", "statement": "For every path s, remove_file_suffix(s) followed by file_suffix(s) is s; file_suffix is the part after the last separator, and file_extension the part after the last dot.", "quantifier": "all byte strings", "why_tests_cant": "position of separators incl. index 0", "anchors": ["rpp/string1.h:65-111 file_suffix, file_extension, remove_file_suffix"]}
{"id": "C42", "title": "Substring, append, write and terminate operate on exact byte ranges", "statement": "sub(a,b) is bytes a..b-1, append is concatenation, write overwrites exactly text.length() bytes, terminate adds one zero byte; out-of-range requests stop with an assertion and never touch other memory.", "quantifier": "all strings and all u64 indices", "why_tests_cant": "index arithmetic can wrap at 2^64", "anchors": ["rpp/string1.h: sub, append, write, terminate", "rpp/slice.h:116-119 sub"]}
{"id": "C43", "title": "Formatting measures exactly what it writes", "statement": "For every formattable value, the length computed by the measuring pass equals the number of bytes the writing pass produces, so format() fills its buffer exactly and never writes past it.", "quantifier": "all values of all (nested) formattable types", "why_tests_cant": "infinite family of types and values", "anchors": ["rpp/format.h:61-191 Measure, Write", "Format specialisations in vec.h, queue.h, map.h, opt.h, rc.h, pair.h, tuple.h, variant.h, ..."]}
{"id": "C44", "title": "format substitutes arguments for percent signs", "statement": "format(fmt, args...) returns fmt with each lone % replaced in order by the rendering of the next argument and each %% by one %; it stops with an assertion when the number of placeholders differs from the number of arguments.", "quantifier": "all format strings and argument lists", "why_tests_cant": "unbounded strings", "anchors": ["rpp/format.h:198-278 write, parse_fmt, format_length, format"]}
{"id": "C45", "title": "concat joins its arguments", "statement": "The concatenation helper returns the renderings of its arguments joined by single separators with no leading or trailing one.", "quantifier": "all argument lists", "why_tests_cant": "unbounded", "anchors": ["rpp/format.h:285-302 concat"]}
{"id": "C46", "title": "parse_i64 inverts integer formatting", "statement": "For every i64 n and every rest string not beginning with a digit, parse_i64(format(n) + rest) gives n and rest; on input without a leading integer it gives nothing.", "quantifier": "all i64 and all rest strings", "why_tests_cant": "2^64 values", "anchors": ["rpp/format1.h:21-33 parse_i64", "rpp/format.h: Measure/Write of integers"]}
{"id": "C47", "title": "parse_string splits off the first whitespace-delimited token", "statement": "parse_string(s) skips leading whitespace and returns the maximal run of non-whitespace bytes and the remaining input; nothing only if s is all whitespace.", "quantifier": "all byte strings", "why_tests_cant": "wrong only for particular token positions and lengths", "anchors": ["rpp/format1.h:49-72 skip_whitespace, parse_string"]}
{"id": "C48", "title": "parse_enum inverts enum_name", "statement": "For every enumeration with distinct values and distinct names free of whitespace, parse_enum(enum_name(e)) gives e.", "quantifier": "all enumerations and all enumerators", "why_tests_cant": "quantifies over user types", "anchors": ["rpp/format1.h:10-19,74-86 enum_name, parse_enum"]}
{"id": "C49", "title": "Rc destroys its value exactly once, with the last handle", "statement": "For any history of make/dup/move/assign/clear/drop of Rc handles, the reference count equals the number of live handles, the value is destroyed exactly when the last handle goes and never accessed afterwards.", "quantifier": "all handle histories", "why_tests_cant": "unbounded histories", "anchors": ["rpp/rc.h:37-131 Rc"]}
{"id": "C50", "title": "Arc destroys its value exactly once under every schedule", "statement": "For any number of threads cloning and dropping Arc handles concurrently, in every interleaving the value is destroyed exactly once, after the last handle was dropped, and no thread touches it afterwards.", "quantifier": "all thread counts and interleavings", "why_tests_cant": "schedules cannot be enumerated by testing", "anchors": ["rpp/rc.h:140-233 Arc", "rpp/pos/thread_pos.cpp:234-254 Atomic"]}
{"id": "C51", "title": "Opt constructs and destroys its payload in balance", "statement": "For any history of construction, assignment, move, clear and destruction of an Opt, ok() tells whether a payload exists, reads are only of existing payloads, and each payload is destroyed exactly once.", "quantifier": "all histories", "why_tests_cant": "ownership errors are invisible to value tests", "anchors": ["rpp/opt.h Opt"]}
{"id": "C52", "title": "Variant dispatches to the held alternative", "statement": "match calls the handler for the alternative held with the stored value, index() tells which; move and assignment (including self-assignment) preserve the held alternative and value.", "quantifier": "all alternative counts up to 255, all values, all histories", "why_tests_cant": "dispatch is generated per number of alternatives", "anchors": ["rpp/variant.h Variant"]}
{"id": "C53", "title": "A signalled Flag releases every waiter", "statement": "In every interleaving, once Flag::signal has completed no thread stays blocked in Flag::block, later blocks return at once, and block never returns before some signal took place.", "quantifier": "all thread counts, all interleavings", "why_tests_cant": "lost wake-ups occur in rare schedules", "anchors": ["rpp/pos/thread_pos.cpp:160-195 Flag::block, signal, ready"]}
{"id": "C54", "title": "Promise delivers the value to the blocked reader", "statement": "In every interleaving of fill and block, block returns exactly the filled value, and never reads an unfilled slot.", "quantifier": "all interleavings", "why_tests_cant": "schedule dependent", "anchors": ["rpp/thread.h Promise, Future", "rpp/thread.h spawn"]}
{"id": "C55", "title": "A coroutine frame is destroyed exactly once", "statement": "For every interleaving of a Task's completion with its owner's drop, await or block, the coroutine frame is destroyed exactly once and not accessed after destruction.", "quantifier": "all interleavings of completion and owner operations", "why_tests_cant": "races between exchange operations", "anchors": ["rpp/async.h:49-70 Final_Suspend", "rpp/async.h:153-163 ~Task", "rpp/async.h:179-195 await_*"]}
{"id": "C56", "title": "An awaited task resumes its awaiter exactly once, after completion", "statement": "If a coroutine awaits a task, it continues exactly once and only after the task has stored its result, in every interleaving; this must also hold when several coroutines await one task.", "quantifier": "all interleavings, any number of awaiters", "why_tests_cant": "races", "anchors": ["rpp/async.h:49-70, 179-195"]}
{"id": "C57", "title": "Pool runs every job exactly once", "statement": "Each job given to a thread pool before shutdown is run at most once by one worker, is never lost while the pool lives, and jobs of one worker queue run in the order queued.", "quantifier": "all thread counts incl. one hardware thread, all schedules", "why_tests_cant": "races on the job queues", "anchors": ["rpp/pool.h:115-159 enqueue, do_work"]}
{"id": "C58", "title": "Pool pairs each event with its own job", "statement": "When an event fires, exactly the job registered with that event is scheduled, exactly once, whatever other events are registered or have fired.", "quantifier": "all registration/firing histories", "why_tests_cant": "swap-removal order depends on history", "anchors": ["rpp/pool.h:136-188 enqueue_event, do_events"]}
{"id": "C59", "title": "Pool worker placement is valid", "statement": "Every worker thread is pinned to an existing core and no two workers to the same core.", "quantifier": "all hardware thread counts from 2 to 64", "why_tests_cant": "depends on the machine's core count", "anchors": ["rpp/pool.h:54-70"]}
{"id": "C60", "title": "Allocation statistics balance", "statement": "For every history of named allocations and frees without double free, current allocated size per name equals the sum of live block sizes, the high-water mark is its maximum, and finalize reports zero net allocations when all was freed.", "quantifier": "all allocation histories", "why_tests_cant": "unbounded histories", "anchors": ["rpp/impl/profile.cpp:160-199 Profile::alloc", "rpp/impl/profile.cpp finalize"]}
{"id": "C61", "title": "Profiler call counts and times belong to the scope entered", "statement": "In a recorded frame, each timing node's call count equals the number of times that scope was entered at that call path, its inclusive time is the sum over its enter/exit intervals, and self time is inclusive time minus that of its children.", "quantifier": "all properly nested traces with any clock values", "why_tests_cant": "wrong only for repeated scopes", "anchors": ["rpp/impl/profile.cpp:118-158 enter, exit", "rpp/impl/profile.cpp:52-60 compute_self_times"]}
{"id": "C62", "title": "Profiler keeps a bounded history of frames", "statement": "However many frames are recorded, at most the configured number of most recent frames is kept, in order.", "quantifier": "all numbers of frames", "why_tests_cant": "unbounded run length", "anchors": ["rpp/impl/profile.cpp:62-101 begin_frame, end_frame"]}
{"id": "C63", "title": "Each log subscriber is called once per message until it unsubscribes", "statement": "Tokens returned by Log::subscribe are distinct; each message is delivered exactly once to every current subscriber and to no unsubscribed one.", "quantifier": "all subscribe/unsubscribe/log histories", "why_tests_cant": "unbounded histories", "anchors": ["rpp/impl/log.cpp:126-193 output, subscribe, unsubscribe"]}
{"id": "C64", "title": "Files::write stores the data", "statement": "If Files::write(path, data) reports success the file's contents are data; on a writable path it reports success.", "quantifier": "all file system states, paths and data", "why_tests_cant": "depends on the whole file system state and partial writes", "anchors": ["rpp/pos/files_pos.cpp write"]}
{"id": "C65", "title": "Files::read returns the whole file", "statement": "If Files::read(path) returns a buffer, it holds exactly the file's bytes, even when the kernel returns short reads; no descriptor stays open afterwards.", "quantifier": "all files and all short-read/error schedules", "why_tests_cant": "short reads are rare", "anchors": ["rpp/pos/files_pos.cpp read"]}
{"id": "C66", "title": "Write_Watcher reports each modification", "statement": "poll() returns true exactly when the file's write time is later than at the last successful observation; a changed file is never missed.", "quantifier": "all histories of write times and polls", "why_tests_cant": "unbounded histories", "anchors": ["rpp/files.h Write_Watcher"]}
{"id": "C67", "title": "Udp sockets own their descriptor and report true lengths", "statement": "Each socket descriptor is closed exactly once over all moves and assignments, and the length reported by recv is never larger than the packet buffer.", "quantifier": "all histories, all datagram sizes and error codes", "why_tests_cant": "kernel behaviour dependent", "anchors": ["rpp/pos/net_pos.cpp Udp"]}
{"id": "C68", "title": "Async::wait completes after its delay", "statement": "Async::wait(pool, ms) resumes the coroutine ms milliseconds later, for every ms including zero.", "quantifier": "all ms", "why_tests_cant": "boundary value of the timer interface", "anchors": ["rpp/pos/asyncio_pos.cpp wait"]}
{"id": "C69", "title": "Mat4 multiplication is composition of transforms", "statement": "In exact arithmetic (A*B)*v = A*(B*v), multiplication is associative with Mat4::I as identity, and transpose reverses products.", "quantifier": "all matrices and vectors over any field", "why_tests_cant": "real-valued inputs", "anchors": ["rpp/vmath.h Mat4", "rpp/impl/vmath.cpp operator*"]}
{"id": "C70", "title": "Mat4::inverse inverts", "statement": "In exact arithmetic, inverse(M)*M = M*inverse(M) = I for every M whose determinant is not zero.", "quantifier": "all invertible matrices over any field", "why_tests_cant": "the block formula has hundreds of terms and is tested on two matrices", "anchors": ["rpp/impl/vmath.cpp:110-161 inverse"]}
{"id": "C71", "title": "Quaternion rotation is consistent", "statement": "In exact arithmetic the product of quaternions is associative, norms multiply, rotating by a product composes the rotations, rotate agrees with to_mat for unit quaternions, and q * inverse(q) = 1 for nonzero q.", "quantifier": "all quaternions and vectors", "why_tests_cant": "real-valued inputs", "anchors": ["rpp/vmath.h:642-773 Quat"]}
{"id": "C72", "title": "Bounding boxes enclose", "statement": "A box after enclose contains all enclosed points and boxes and is the smallest such; transform(M) contains the image of every point of the box under affine M.", "quantifier": "all boxes, points, affine matrices over an ordered field", "why_tests_cant": "real-valued inputs", "anchors": ["rpp/vmath.h:775-866 BBox"]}
{"id": "C73", "title": "Vector operators mean component-wise arithmetic", "statement": "v op w, v op s and s op v compute the component-wise operation in the written operand order for + - * /, and no operator except the assigning ones changes its operands.", "quantifier": "all vectors and scalars, every vector length incl. the SIMD specialisations", "why_tests_cant": "specialised code paths per length", "anchors": ["rpp/vmath.h Vect operators", "rpp/impl/simd.cpp"]}
{"id": "C74", "title": "Heap owns each element once", "statement": "Under every program of heap operations (including cloning) each element is destroyed exactly once, no freed or raw cell is read, and after the destructor no block is left.", "quantifier": "all programs, plain and owning element types", "why_tests_cant": "operation sequences are unbounded", "anchors": ["rpp/heap.h:57-174"]}
{"id": "C75", "title": "clamp, min and max select the right argument", "statement": "clamp(x, lo, hi) with lo <= hi is the point of [lo, hi] nearest to x; min/max of any number of arguments is a lower/upper bound of all of them and one of them.", "quantifier": "all integer arguments and all argument counts", "why_tests_cant": "infinitely many argument lists", "anchors": ["rpp/math.h: clamp, min, max"]}
{"id": "C76", "title": "abs is the absolute value except at the minimum", "statement": "For every signed integer other than the least one of its type, abs(x) is |x|; at the least value the negation overflows.", "quantifier": "all values of all signed widths", "why_tests_cant": "the failing value is one in 2^w", "anchors": ["rpp/math.h: abs"]}
{"id": "C77", "title": "begin_frame returns the time since the previous frame began", "statement": "For every history of frames of a thread, Profile::begin_frame returns the clock difference between this frame's begin and the previous frame's begin, and zero for the first frame.", "quantifier": "all histories of frames and scopes, any clock values", "why_tests_cant": "wrong only when a scope was repeated in the previous frame", "anchors": ["rpp/impl/profile.cpp:62-86 begin_frame", "rpp/impl/profile.cpp:118-140 enter"]}
{"id": "C78", "title": "Log calls return or end the program", "statement": "Every call of Log::subscribe, unsubscribe and output returns, or ends the program with a message when it is misused; none waits for itself.", "quantifier": "all histories, callbacks that use the log, unknown tokens", "why_tests_cant": "the failing histories block instead of failing", "anchors": ["rpp/impl/log.cpp:126-193", "rpp/log.h:22-24 die", "rpp/pos/thread_pos.cpp:197-202 Mutex"]}
{"id": "C79", "title": "Async::write stores the data", "statement": "If Async::write reports success the file's contents are the data given, the file is accessible to its creator, and no descriptor stays open, whatever the kernel does.", "quantifier": "all file system states, paths, data and kernel answers", "why_tests_cant": "short writes and full disks", "anchors": ["rpp/pos/asyncio_pos.cpp:45-65 write"]}
{"id": "C80", "title": "Async::Event owns its descriptor and wait_any names a signalled event", "statement": "Over all programs each descriptor is closed exactly once and never while an event holds it; wait_any returns the index of an event that is signalled, and returns if there is one.", "quantifier": "all programs and histories, including moves to itself and signal handlers", "why_tests_cant": "depends on the kernel and on the order of operations", "anchors": ["rpp/pos/async_pos.cpp:10-46", "rpp/pos/async_pos.cpp:68-101 wait_any"]}
{"id": "C81", "title": "Event::signal, reset and try_wait agree", "statement": "After signal an event is ready and try_wait returns true; after reset it is not ready and try_wait returns false; both may be called any number of times in any order.", "quantifier": "all sequences of operations", "why_tests_cant": "sequences are unbounded", "anchors": ["rpp/pos/async_pos.cpp:48-66"]}
{"id": "C82", "title": "Mat4::scale, translate and rotate are what they say", "statement": "scale multiplies coordinates, translate moves points and leaves directions, swap_x_z exchanges x and z, rotate turns every vector about the axis by the angle: it is a rotation, keeps the axis, and successive turns add up.", "quantifier": "all vectors, axes and angles over any field", "why_tests_cant": "real-valued inputs", "anchors": ["rpp/impl/vmath.cpp:195-225"]}
{"id": "C83", "title": "Mat4::ortho maps the viewing box to the clip box", "statement": "ortho(l, r, b, t, n, f) takes the planes x = l, r to -1, 1, y = b, t to -1, 1 and z = -n, -f to the two ends of the depth range.", "quantifier": "all planes with different ends over any field", "why_tests_cant": "real-valued inputs; no test covers it", "anchors": ["rpp/impl/vmath.cpp:227-236 ortho"]}
{"id": "C84", "title": "Mat4::look_at puts the eye at the origin looking down -z", "statement": "look_at(pos, at, up) is a rotation after a translation taking pos to the origin, at to the negative z axis at its distance, and up to the plane x = 0.", "quantifier": "all eye, target and up vectors not in line, over any field", "why_tests_cant": "real-valued inputs", "anchors": ["rpp/impl/vmath.cpp:174-193 look_at"]}
{"id": "C85", "title": "rotate_y_to and rotate_z_to turn the axis to the direction", "statement": "For every direction rotate_y_to(dir) is a rotation taking the y axis to dir scaled to length one, and rotate_z_to(dir) is one taking the z axis there.", "quantifier": "all nonzero directions over any field", "why_tests_cant": "wrong sign and wrong handedness look plausible", "anchors": ["rpp/impl/vmath.cpp:250-275"]}
{"id": "C86", "title": "Vector comparisons, constructors and maps are component-wise", "statement": "== holds just when all components are equal and != otherwise; abs, floor, ceil, min, max, clamp and casts work on each component; Vect(x) and Vect(f, s) have the components given; proj divides by the last.", "quantifier": "all element types, lengths and values, with and without SIMD", "why_tests_cant": "specialised code paths per length", "anchors": ["rpp/vmath.h:54-63, 216-244, 278-335, 502-556"]}
{"id": "C87", "title": "dot, norm2, min, max, lerp and unit compute what they say", "statement": "In exact arithmetic dot is the sum of the products, norm2 of the squares, min() and max() the extreme components, lerp the point in between, and unit() has norm one.", "quantifier": "all vectors of all lengths over an ordered field", "why_tests_cant": "real-valued inputs", "anchors": ["rpp/vmath.h:255-313, 537-561", "rpp/impl/simd.cpp:138-146"]}
{"id": "C88", "title": "Quat::euler makes the three turns", "statement": "euler(a) is the turn about x by a.x, then y by a.y, then z by a.z, for all angles.", "quantifier": "all angles", "why_tests_cant": "one special case is wrong", "anchors": ["rpp/vmath.h:673-687 euler"]}
{"id": "C89", "title": "to_euler recovers the rotation", "statement": "For every rotation matrix the angles returned by to_euler, applied in the order x, y, z, give the matrix again.", "quantifier": "all rotation matrices", "why_tests_cant": "real-valued inputs, gimbal lock", "anchors": ["rpp/impl/vmath.cpp:385-417 to_euler"]}
{"id": "C90", "title": "Mat4::proj is the perspective projection with reversed depth", "statement": "The edges of the field of view land on the edges of the screen, the near plane at depth 1 and everything at depth n / distance.", "quantifier": "all points, fields of view and aspect ratios over any field", "why_tests_cant": "real-valued inputs; not tested", "anchors": ["rpp/impl/vmath.cpp:238-248 proj"]}
{"id": "C91", "title": "Transforming keeps empty boxes empty", "statement": "A box without points has none after transform, and one with points keeps some.", "quantifier": "all boxes and matrices over an ordered field", "why_tests_cant": "the empty box has huge coordinates of the wrong sign", "anchors": ["rpp/vmath.h:817-833 transform"]}
{"id": "C92", "title": "BBox::project bounds the image", "statement": "project gives a screen rectangle containing the perspective image of every point of the box that is in front of the camera.", "quantifier": "all boxes and projective matrices over an ordered field", "why_tests_cant": "real-valued inputs; not tested", "anchors": ["rpp/vmath.h:835-863 project"]}
{"id": "C93", "title": "Map destroys each key and value exactly once", "statement": "Over all programs on maps - construction with any capacity, insertion of new and present keys, assignment, erasure, growth, clearing, moves (also to itself), clones and destruction - every pair constructed is destroyed exactly once, none is read or destroyed when it is not there, and none is lost; the map still behaves as a finite map.", "quantifier": "all programs over any number of maps, all key types and hash functions", "why_tests_cant": "moves inside the table depend on the collisions; a double destruction may go unnoticed", "anchors": ["rpp/map.h:13-64 Map_Slot", "rpp/map.h:110-172, 407-443"]}
{"id": "C94", "title": "A Box owns its value alone and destroys it once", "statement": "Programs construct, move, clone, overwrite, emplace into and destroy boxes, in variables and inside of boxed values. Each such program behaves as the same program on plain values: it dies where that one does, every path reads the same afterwards, and a clone shares nothing with its source. At any time every value on the heap that was not destroyed is held by exactly one box, which can be reached from a variable; no value is destroyed twice; when all variables are gone every value was destroyed once.", "quantifier": "all programs of any length over any number of boxes nested to any depth, all values", "why_tests_cant": "the usual step to unlink a list element is undefined, and the memory it reads is mostly still intact in a test", "anchors": ["rpp/box.h:12-54", "rpp/box.h:65-100"]}
{"id": "C95", "title": "A Function calls and releases the closure it holds", "statement": "Programs make functions from closures of any types, move them (also to themselves), call them and destroy them. Every call goes to the closure last put there, with the state earlier calls left, and dies exactly when the function is empty. Each closure's captures are released exactly once, and every closure object constructed in a function is destroyed.", "quantifier": "all programs over any number of functions, all closure types and states", "why_tests_cant": "closures in tests capture little, so an object left without its destructor shows no effect", "anchors": ["rpp/function.h:22-50", "rpp/function.h:56-103"]}
{"id": "C96", "title": "spawn keeps its promise alive for both sides and gives everyone the result", "statement": "A thread started by spawn and any number of threads holding futures fill, wait for, duplicate, hand over and drop them in any order. Nobody touches the promise after its destruction; promise and closure are destroyed and freed exactly once; block returns the function's result to the first to ask (to all, for plain data); and once the thread started has run, nobody waits for ever.", "quantifier": "all schedules of any number of threads, including needless wake-ups", "why_tests_cant": "tests join the future at once in one order; the last handle may be dropped on either side, also while the other is inside fill or block", "anchors": ["rpp/thread.h:138-145", "rpp/thread.h:150-169"]}
{"id": "C97", "title": "Each thread is joined or detached once, by the one handle that holds it", "statement": "A program starts threads, moves, assigns, joins, detaches and destroys handles while the threads end at any time. An operation fails only for a variable out of scope or a null handle (join and detach die); no thread is joined or detached twice; a thread not yet joined or detached is in exactly one handle; join and the destructor return only once the thread has ended, so that without detach no thread outlives the scope of its handle.", "quantifier": "all programs over any number of handles and threads, all times at which threads end", "why_tests_cant": "tests start a few threads and join them in order; moves over a running thread and early scope ends depend on timing", "anchors": ["rpp/thread.h:91-148", "rpp/pos/thread_pos.cpp:301-326"]}
{"id": "C98", "title": "One changed byte changes the hash of a string", "statement": "Two strings of the same length that differ in exactly one byte have different hashes, and a common ending adds no collisions: two strings that collide with it collide without it.", "quantifier": "all byte strings of any length", "why_tests_cant": "tests compare a handful of strings; a hash that drops or folds some bytes passes unless such a pair is tried", "anchors": ["rpp/hash.h:14-35", "rpp/string0.h:285-300"]}
{"id": "C99", "title": "popcount counts the one bits", "statement": "popcount(x) is the number of one bits of x; it is 0 only for 0 and 1 exactly for powers of two.", "quantifier": "all words of any width", "why_tests_cant": "a sample of values says nothing about the other words", "anchors": ["rpp/impl/math.cpp:115-129"]}
{"id": "C100", "title": "ASCII case conversion and white space", "statement": "to_uppercase and to_lowercase exchange corresponding letters of the two alphabets and leave every other byte alone; comparing by either is the same; is_whitespace accepts exactly blank, tab, line feed, vertical tab and carriage return.", "quantifier": "all 256 bytes (all pairs for comparison)", "why_tests_cant": "tests convert a few words; the ends of the alphabets and bytes above 127 are easily left out", "anchors": ["rpp/string0.h:245-257"]}
{"id": "C101", "title": "Destroying a Range_Allocator gives back all its blocks", "statement": "After any sequence of allocations and frees the destructor gives each block record back to the base allocator exactly once.", "quantifier": "all histories, heap sizes, bucket counts", "why_tests_cant": "tests free everything and look at the statistics, not at the records; records of ranges still in use are not looked at", "anchors": ["rpp/range_allocator.h:21-24", "rpp/range_allocator.h:252-263", "rpp/alloc0.h:152-158"]}
{"id": "C102", "title": "A Range_Allocator can be moved", "statement": "Moving an allocator, by construction or assignment, hands over its heap and ranges; the result can be used and destroyed like the original.", "quantifier": "all states of source and target", "why_tests_cant": "no test moves an allocator", "anchors": ["rpp/range_allocator.h:29-44", "rpp/pos/thread_pos.cpp:197-216"]}
{"id": "C103", "title": "Map::get by String_View agrees with get by key", "statement": "get(String_View) returns the value of the key, and reports a missing key, as get(const K&) does.", "quantifier": "all reachable maps, keys and hash functions", "why_tests_cant": "tests look up keys that are there", "anchors": ["rpp/map.h:290-297", "rpp/map.h:445-462"]}
{"id": "C104", "title": "skip_whitespace drops leading white space only", "statement": "The result is the input from its first byte that is not white space on; for input of white space only it is empty.", "quantifier": "all byte strings", "why_tests_cant": "tests use one or two blanks", "anchors": ["rpp/format1.h:49-55"]}
{"id": "C105", "title": "Thread::Flag on Windows", "statement": "block returns only after a signal began; no thread sleeps after a completed signal; ready reports a completed signal.", "quantifier": "all numbers of threads, all schedules, any number of signals", "why_tests_cant": "losing a wake-up needs one particular interleaving; the counter must overflow", "anchors": ["rpp/w32/thread_w32.cpp:81-98", "rpp/thread0.h:137-160"]}
{"id": "C106", "title": "Thread::Flag on macOS", "statement": "block returns only after a signal; no thread waits for ever once signal has completed; ready reports a completed signal.", "quantifier": "all numbers of threads, all schedules", "why_tests_cant": "losing a wake-up needs one particular interleaving", "anchors": ["rpp/pos/thread_pos.cpp:169-170", "rpp/pos/thread_pos.cpp:182-193", "rpp/thread0.h:150-152"]}
{"id": "C107", "title": "Event::wait_any on macOS", "statement": "wait_any returns the index of a signalled event and waits only if none is signalled.", "quantifier": "all lists of events, all sets of signalled ones", "why_tests_cant": "macOS runs of the tests wait for one event", "anchors": ["rpp/pos/async_bsd.cpp:67-96"]}
{"id": "C108", "title": "Event::signal and reset on macOS", "statement": "An event is ready exactly if the last operation was signal; try_wait tells which.", "quantifier": "all sequences of operations", "why_tests_cant": "tests signal once and reset once", "anchors": ["rpp/pos/async_bsd.cpp:52-65"]}
{"id": "C109", "title": "Events on Windows", "statement": "wait_any returns the index of a signalled event and waits only if none is signalled; try_wait tells if the last operation was signal.", "quantifier": "all lists of events", "why_tests_cant": "tests wait for a few events", "anchors": ["rpp/w32/async_w32.cpp:44-81"]}
{"id": "C110", "title": "Thread::sleep sleeps long enough", "statement": "sleep(ms) returns after at least ms milliseconds.", "quantifier": "all u64 durations, both implementations", "why_tests_cant": "no test sleeps for an hour", "anchors": ["rpp/pos/thread_pos.cpp:37-39", "rpp/w32/thread_w32.cpp:12-14"]}
{"id": "C111", "title": "Names of the object pools", "statement": "pool_name(N) is Pool<N> in decimal, without leading zeros, within 31 characters; different sizes have different names.", "quantifier": "all block sizes below 2^64", "why_tests_cant": "tests use a handful of small types", "anchors": ["rpp/alloc1.h:12-24", "rpp/utility.h:602-628"]}
{"id": "C112", "title": "Mpool: object pools shared by threads", "statement": "make never returns memory of a live object, no step of make or destroy touches a live object other than its own, no thread gets stuck, and when all objects are destroyed the finalizer returns each block to the system once.", "quantifier": "all numbers of threads, all schedules, all sequences of make and destroy by any thread", "why_tests_cant": "a race on the free list needs a particular interleaving; tests use the pool from few threads", "anchors": ["rpp/alloc1.h:26-86", "rpp/alloc0.h:141-184"]}
{"id": "C113", "title": "Task::then gives the result of the continuation", "statement": "t.then(f) is a task whose result is that of f applied to the result of t, whichever of them finishes first and wherever t and f come from.", "quantifier": "all schedules of the task, the continuation and the caller; temporary and named tasks", "why_tests_cant": "the library has no test of then; the failure needs a task that is not finished at once", "anchors": ["rpp/async.h:215-224", "rpp/async.h:153-195"]}
{"id": "C114", "title": "Files::read and Files::write on Windows", "statement": "A buffer returned by read equals the file; when write returns true the file holds the data and no other file changed; no handle stays open; neither stops the program.", "quantifier": "all files, data and answers of the system", "why_tests_cant": "tests read and write small files completely on a healthy disk; failing size queries and short transfers do not occur", "anchors": ["rpp/w32/files_w32.cpp:37-73", "rpp/w32/files_w32.cpp:75-100"]}
{"id": "C115", "title": "Async::read and Async::write on Windows", "statement": "A buffer returned by read equals the file; when write returns true the file holds the data; when the system transferred everything they do not report failure; no handle stays open or is closed twice.", "quantifier": "all files, data and answers of the system", "why_tests_cant": "a transfer complete at once, a failing transfer and data from 2 GiB up do not occur in tests", "anchors": ["rpp/w32/asyncio_w32.cpp:11-65", "rpp/w32/asyncio_w32.cpp:67-128"]}
{"id": "C116", "title": "Async::wait on Windows takes the time asked for", "statement": "A task waiting with Async::wait(pool, ms) goes on ms milliseconds later.", "quantifier": "all times of day and all 64-bit ms", "why_tests_cant": "tests wait a few milliseconds", "anchors": ["rpp/w32/asyncio_w32.cpp:130-150"]}
{"id": "C117", "title": "Operations on packs of types and type lists", "statement": "All_Same, All_Are, One_Is, Distinct say what their names say; Choose gives the i-th type and Index_Of the first position, inverse to each other on packs without repetition; the type lists of reflection hold their types in order.", "quantifier": "all packs and type lists", "why_tests_cant": "each instantiation checks one pack; the tests instantiate few", "anchors": ["rpp/utility.h:278-389", "rpp/reflect.h:95-235"]}
{"id": "C118", "title": "Decay and Refl are defined for all types", "statement": "Decay<T> is T without reference and qualifiers; Refl<T> has the name of the type at the bottom and the kind of the outermost constructor.", "quantifier": "all types built from qualifiers, pointers, arrays and references", "why_tests_cant": "every type is a program of its own; the tests name few", "anchors": ["rpp/utility.h:237-260", "rpp/reflect.h:353-406"]}
{"id": "C119", "title": "Enum and Record tell enumerations from records", "statement": "Enum<T> holds exactly if T is a reflected enumeration, Record<T> exactly if it is a reflected record; Enum_Case and Record_Field hold of the members.", "quantifier": "all specialisations of Refl the macros define", "why_tests_cant": "tests use the concepts only on types for which they should hold", "anchors": ["rpp/reflect.h:255-299"]}
{"id": "C120", "title": "Literals", "statement": "Literals made from strings without zero bytes are equal exactly if the strings are; exactly strings up to 31 characters are literals.", "quantifier": "all strings", "why_tests_cant": "a few literals are used as template arguments", "anchors": ["rpp/utility.h:602-628"]}
{"id": "C121", "title": "Region memory is aligned", "statement": "The address returned for a request in a region is suitable for objects of any type of that size.", "quantifier": "all nestings of scopes and all allocation sizes", "why_tests_cant": "x86 tolerates misaligned access, and the tests allocate from regions in multiples of eight", "anchors": ["rpp/impl/alloc.cpp:13-17", "rpp/impl/alloc.cpp:50-59"]}
{"id": "C122", "title": "Tuples and pairs keep their elements in order", "statement": "get<i> of a tuple is its i-th constructor argument and writing through it changes nothing else; invoke passes all elements in order; clones of tuples and pairs have equal values in objects of their own, and every temporary is destroyed once.", "quantifier": "all numbers of elements, all values, lvalue and rvalue arguments, cloned and copied members", "why_tests_cant": "the recursion over the pack depends on the number of elements; the tests have tuples of up to three", "anchors": ["rpp/tuple.h Tuple", "rpp/pair.h Pair::clone"]}
{"id": "C123", "title": "Array indexing is checked and clones are deep", "statement": "Indexing an Array ends the program exactly when the index is out of bounds; a clone has equal values in objects of its own, and every temporary is destroyed once.", "quantifier": "all lengths, indices and values, plain and owning elements", "why_tests_cant": "the clone loop runs over every element and replaces default objects", "anchors": ["rpp/array.h Array::clone", "rpp/array.h Array::operator[]"]}
{"id": "C124", "title": "swap exchanges two objects", "statement": "swap(a, b) exchanges the values of a and b and changes nothing else, also when they are the same object; shuffle built on it permutes.", "quantifier": "all vectors and places, plain and owning elements, all generator states", "why_tests_cant": "memcpy onto itself works on common platforms, so that tests do not notice it", "anchors": ["rpp/utility.h:630-642 swap", "rpp/rng.h:45-51 shuffle"]}
{"id": "C125", "title": "Udp on Windows reports every datagram", "statement": "On Windows recv reports each datagram that has arrived, with its length and its bytes at the front of the packet, and nothing exactly when nothing has arrived; the length is at most 1472; send hands the given bytes to the kernel or reports that it did not.", "quantifier": "all sequences of datagrams of any length and kernel answers, all send lengths", "why_tests_cant": "the test sends five bytes to itself; datagrams too long for the packet and errors do not occur", "anchors": ["rpp/w32/net_w32.cpp:118-144 Udp::recv, Udp::send"]}
{"id": "C126", "title": "Network addresses are read from the bytes of the view", "statement": "Net::Address(text, port) is the address spelled by exactly the bytes of the view; text that spells none is noticed.", "quantifier": "all views into all blocks, every inet_pton", "why_tests_cant": "the tests pass literals, which have a zero byte behind them", "anchors": ["rpp/pos/net_pos.cpp:10-19 Address::Address", "rpp/w32/net_w32.cpp:50-69 Address::Address"]}
{"id": "C127", "title": "A failed check is reported", "statement": "When a check fails, in any state of the thread's regions, its message is printed and the program ends; logging any other message returns and leaves the thread's regions as they were.", "quantifier": "all histories of region scopes and allocations of a thread, all message lengths, any memory limit", "why_tests_cant": "the tests never log in the innermost of 127 scopes or without memory", "anchors": ["rpp/log.h:22-31 die, assert", "rpp/log.h:90-93 Log::log", "rpp/impl/alloc.cpp:65-70 Region_Allocator::begin", "rpp/impl/alloc.cpp:101-108 sys_alloc"]}
{"id": "C128", "title": "Threads can use the profiler at the same time", "statement": "However threads interleave frames, scopes, recorded allocations, iterate_timings and their own ends, there is no data race on the frames and no access to the profile of a thread that has ended, and every call returns.", "quantifier": "any number of threads, all interleavings, all callbacks", "why_tests_cant": "the tests iterate on one thread; races depend on the schedule", "anchors": ["rpp/profile.h:82-104 iterate_timings", "rpp/profile.h:136-158 Thread_Profile", "rpp/impl/profile.cpp:18-36 register_thread, unregister_thread", "rpp/impl/profile.cpp:62-116 begin_frame, end_frame, enter", "rpp/impl/profile.cpp:192-197 alloc"]}
{"id": "C129", "title": "Selecting among floating point numbers", "statement": "For all floating point numbers, with infinities, NaN and both zeros: min, max and their list versions return a least and a greatest of the numbers, clamp returns the nearest number within the bounds, a box contains all points it enclosed, SIMD vectors give the same as others, and sign is that of the number.", "quantifier": "all bit patterns, f32 and f64, lists of any length", "why_tests_cant": "the tests use a few finite numbers", "anchors": ["rpp/math.h:16-42 min, max", "rpp/math.h:127-130 clamp", "rpp/impl/math.cpp:102-107 sign", "rpp/impl/simd.cpp:118-124 F32x4::min, max", "rpp/vmath.h:245-253 operator-", "rpp/vmath.h:502-522 min, max", "rpp/vmath.h:554-556 clamp", "rpp/vmath.h:777-797 BBox"]}
{"id": "C130", "title": "Slices and references", "statement": "Programs on slices never leave the array, and see and change what the same windows on it would: every access or part beyond the end ends the program. References name objects as variables do; moving hands the object over.", "quantifier": "all programs, arrays and 64-bit numbers", "why_tests_cant": "the tests take a few parts of small arrays", "anchors": ["rpp/slice.h:22-138 Slice", "rpp/slice.h:116-119 sub", "rpp/ref0.h:10-45 Ref", "rpp/ref1.h:10-32 operator*"]}
{"id": "C131", "title": "Files are opened under the name given", "statement": "The name the system gets for a path is the text of the view, or the call fails.", "quantifier": "all views, all conversions from UTF-8", "why_tests_cant": "the tests use short literal names", "anchors": ["rpp/pos/files_pos.cpp:12-16 read", "rpp/pos/files_pos.cpp:42-46 write", "rpp/w32/w32_util.cpp:8-26 utf8_to_ucs2", "rpp/string1.h:36-42 terminate"]}
{"id": "C132", "title": "A log line shows the message", "statement": "The line printed for a message has the time, level, thread, place and indentation, and the whole message.", "quantifier": "all messages, threads, places and depths", "why_tests_cant": "the tests log short messages without zero bytes", "anchors": ["rpp/impl/log.cpp:126-168 output"]}
{"id": "C133", "title": "The text of a system error", "statement": "Log::sys_error on Windows returns and gives the text the system has for the error, without the end of line, or the number of the error if there is none.", "quantifier": "all tables of texts, all errors", "why_tests_cant": "the tests run in one language and cause no errors", "anchors": ["rpp/impl/log.cpp:48-69 sys_error", "rpp/w32/w32_util.cpp:28-51 ucs2_to_utf8"]}
{"id": "C134", "title": "Finalizers and the final report", "statement": "Profile::finalize calls every finalizer registered once and in order, then reports each allocator used, with a warning exactly if its allocations and frees do not add up.", "quantifier": "all programs, finalizers and log callbacks", "why_tests_cant": "the tests register no finalizers of their own and subscribe no callbacks", "anchors": ["rpp/impl/profile.cpp:201-230 finalize", "rpp/impl/profile.cpp:160-199 alloc"]}
{"id": "C135", "title": "Priority and affinity of threads", "statement": "set_priority gives a higher priority for a higher level; set_affinity binds the thread to the core; a pool can be made on every machine, its threads on different cores.", "quantifier": "all bounds, threads, permissions, machines and sets of allowed cores", "why_tests_cant": "the tests run on one machine without restrictions", "anchors": ["rpp/pos/thread_pos.cpp:77-158 set_priority", "rpp/w32/thread_w32.cpp:49-75 set_priority", "rpp/pool.h:54-69 Pool"]}
{"id": "C136", "title": "Strings own their memory and views follow it", "statement": "Programs on any number of strings and views see what value semantics says, a view following the contents of its string when they are moved; memory is freed exactly once, and undefined behaviour needs a view whose string is gone or bytes never written.", "quantifier": "all programs on strings and views", "why_tests_cant": "the tests use few strings at a time, and no view outlives a move", "anchors": ["rpp/string0.h:82-124 String", "rpp/string0.h:13-82 String_View", "rpp/string1.h:10-152 write"]}
{"id": "C137", "title": "Emplacing a container's own element", "statement": "c.emplace(e) for an element e of c itself adds the value of e, on Vec, Queue, Heap and Map; erasing a map entry through a reference to its own key is the same as erasing the key.", "quantifier": "all programs that build the container, all elements", "why_tests_cant": "the tests never emplace an element of the same container", "anchors": ["rpp/vec.h:183-190 emplace", "rpp/queue.h:157-169 emplace", "rpp/heap.h:146-153 emplace", "rpp/map.h:226-234 emplace", "rpp/map.h:252-271 try_erase"]}
{"id": "C138", "title": "Regions in coroutines", "statement": "A coroutine that opens and closes region scopes in nested order, on whatever threads it is continued and whatever other coroutines run there meanwhile, fails no check of the allocator, and the blocks it holds stay its own until their scope ends.", "quantifier": "all coroutines with nested scopes, all schedules on any number of threads", "why_tests_cant": "the tests never suspend a coroutine inside a region", "anchors": ["rpp/alloc0.h:64-106 Region_Allocator::Scope, Mregion", "rpp/impl/alloc.cpp:29-91 thread_local region state", "rpp/pool.h:16-150 Schedule, enqueue, do_work"]}
{"id": "C139", "title": "The pool has no data races and its locks do not deadlock", "statement": "Whatever threads submit jobs and events to a pool while its workers and its event thread run, no two of them touch the same data at the same time with one of them changing it, no mutex is released by a thread that does not hold it, and no call waits for ever for a mutex.", "quantifier": "all numbers of workers and threads, all calls, all interleavings", "why_tests_cant": "a data race shows up only in particular interleavings, and on common machines often not at all", "anchors": ["rpp/pool.h:115-188 enqueue, enqueue_event, do_work, do_events", "rpp/pool.h:71-95 ~Pool"]}
{"id": "C140", "title": "Changing a map while iterating over it", "statement": "A loop over a Map whose body erases keys comes to its end, removes exactly the keys its body erases, and visits every entry that is not erased before its turn exactly once.", "quantifier": "all maps, all loop bodies", "why_tests_cant": "whether an entry is missed depends on which keys collide in the table", "anchors": ["rpp/map.h:339-404 Iterator, begin, end", "rpp/map.h:252-271 try_erase", "rpp/map.h:433-443 fix_up"]}
{"id": "C141", "title": "Names of types", "statement": "format_typename<T>() exists for every reflected type, is the spelling of the type in C++, and is different for different types.", "quantifier": "all types built from classes, template instances, function types, qualifiers, pointers, arrays and references", "why_tests_cant": "the types are infinitely many and each is a program of its own; the tests print names without comparing them", "anchors": ["rpp/format.h:304-436 Typename, format_typename", "rpp/function.h:166-173"]}
{"id": "C142", "title": "The SSE and the clang version of the vector code agree", "statement": "Every function of F32x4 and the inverse of a matrix give the same numbers whether they are compiled with SSE intrinsics or with vector extensions.", "quantifier": "all operands; any arithmetic of the elements, rounded or not", "why_tests_cant": "each platform compiles only one of the two versions; tests on one say nothing of the other", "anchors": ["rpp/impl/simd.cpp:13-152", "rpp/impl/vmath.cpp:12-163"]}
{"id": "C143", "title": "A Lock unlocks its mutex exactly once", "statement": "A Lock holds its mutex locked from when it is made until it, or the Lock it was moved to, ends; no two Locks hold a mutex at the same time; when every Lock has ended every mutex is free.", "quantifier": "any number of threads, mutexes and Lock objects; every program of making, moving, assigning and ending Locks; every schedule", "why_tests_cant": "a lost unlock shows only when another thread wants the mutex afterwards, and the tests never assign a Lock", "anchors": ["rpp/thread0.h:54-72", "rpp/ref0.h:23-30", "rpp/pos/thread_pos.cpp:211-223"]}
{"id": "C144", "title": "Hashes of vectors", "statement": "Vectors that compare equal have the same hash, and vectors that differ in one component have different hashes.", "quantifier": "vectors of any length, of integers of any width and of floating point numbers", "why_tests_cant": "the number of vectors is far too large to try them, and the zeros of the two signs are not tried", "anchors": ["rpp/vmath.h:955-964", "rpp/hash.h:33-66"]}
{"id": "C145", "title": "Atomic counters lose nothing", "statement": "Increments and decrements of an Atomic by any number of threads are all counted and each returns the count after it; of several attempts to replace the same value exactly one succeeds; counting with load and compare_and_swap loses nothing.", "quantifier": "any number of threads, any values, every schedule, both platforms", "why_tests_cant": "tests see a few schedules and never the ends of the range", "anchors": ["rpp/thread0.h:75-103", "rpp/pos/thread_pos.cpp:234-254", "rpp/w32/thread_w32.cpp:120-138"]}
{"id": "C146", "title": "Random streams are uniform and do not repeat early", "statement": "Every value of integer belongs to the same number of generator states and every value of range to the same number up to the remainder; streams with different seeds differ at every draw and repeat no value before they begin again; coin_flip(p) is true for the share p of the states.", "quantifier": "all 2^64 states, all integer types, ranges, seeds and probabilities", "why_tests_cant": "a test cannot draw from all states; a few draws of coin_flip look like luck", "anchors": ["rpp/rng.h:16-62", "rpp/hash.h:14-31"]}
{"id": "C147", "title": "Degrees and radians convert with the accuracy of the type", "statement": "radians multiplies by pi/180 and degrees by 180/pi with the relative accuracy of the type of the argument, and degrees undoes radians.", "quantifier": "all angles, types with 24 bits or more, rounding to nearest", "why_tests_cant": "a test compares with a tolerance that hides the error, or in f32 only", "anchors": ["rpp/math.h:10-12", "rpp/math.h:54-61"]}
{"id": "C148", "title": "Interpolation reaches both ends and stays between them", "statement": "In floating point arithmetic lerp(a, b, 0) is a, lerp(a, b, 1) is b, lerp(a, b, t) for t from 0 to 1 is between a and b, and it moves from a towards b as t grows; so does each component of the vector version.", "quantifier": "all numbers of every floating point type, with and without fused multiply-add, vectors of all lengths", "why_tests_cant": "the ends for which it fails are far apart; tests use small round numbers, for which every step is exact", "anchors": ["rpp/math.h:122-125", "rpp/vmath.h:548-551"]}
{"id": "C149", "title": "smoothstep rises from 0 to 1", "statement": "smoothstep(e0, e1, x) is 0 for x up to e0, 1 for x from e1 on, between 0 and 1 in between, and it never falls as x grows.", "quantifier": "all edges and arguments, every floating point type", "why_tests_cant": "it falls only between neighbouring numbers, which tests do not compare; that no result is above 1 depends on all roundings together", "anchors": ["rpp/math.h:136-139"]}
{"id": "C150", "title": "frac is the fractional part", "statement": "frac(x) is at least 0 and below 1, and x - frac(x) is an integer.", "quantifier": "all numbers of every floating point type", "why_tests_cant": "tests use small positive numbers", "anchors": ["rpp/math.h:132-134"]}
{"id": "C151", "title": "Dot products and norms are accurate", "statement": "The relative error of dot and of norm2 in floating point arithmetic is at most one rounding for each component.", "quantifier": "all vectors of all lengths and floating point types, with and without SIMD and fused multiply-add", "why_tests_cant": "a bound on the error needs all vectors; tests compare with a tolerance on a few", "anchors": ["rpp/vmath.h:293-301", "rpp/vmath.h:537-546", "rpp/impl/simd.cpp:138-146"]}
{"id": "C152", "title": "Allocating, logging and profiling do not deadlock", "statement": "Threads that allocate, log, profile, iterate over timings and take mutexes of their own do not deadlock on the mutexes of the library.", "quantifier": "all numbers of threads, all interleavings, all paths through the calls, all callbacks that keep to the rules", "why_tests_cant": "a deadlock needs an interleaving that tests rarely meet, and its absence all of them", "anchors": ["rpp/impl/profile.cpp:160-204", "rpp/profile.h:82-104", "rpp/impl/log.cpp:126-193", "rpp/alloc1.h:31-59", "rpp/range_allocator.h:21-24"]}
{"id": "C153", "title": "unit and normalize give vectors of length one", "statement": "unit() and normalize() give a vector with the direction of the operand and length one up to rounding, for every vector that is not zero.", "quantifier": "all vectors of all lengths and IEEE 754 formats, all square roots of a given accuracy, with and without SIMD", "why_tests_cant": "needs all magnitudes; tests use vectors of moderate length, where it holds", "anchors": ["rpp/vmath.h:255-276", "rpp/vmath.h:293-301", "rpp/vmath.h:337-341", "rpp/impl/math.cpp:96-101"]}
{"id": "C154", "title": "Growing a container costs amortised constant time", "statement": "Adding n elements to a container moves at most 2 n elements to new memory, and allocates memory logarithmically often.", "quantifier": "all programs of additions and removals of all lengths, all element types, all hash functions", "why_tests_cant": "the cost of growing shows in long programs only, and the bound holds for all of them", "anchors": ["rpp/vec.h:99-156", "rpp/queue.h:96-155", "rpp/heap.h:92-153", "rpp/map.h:155-224"]}
{"id": "C155", "title": "Values are freed when nothing leads to them", "statement": "With handles inside of values, a value stays exactly as long as some variable leads to it, and dropping a handle needs a bounded stack.", "quantifier": "all histories of operations on Rc handles in variables and in values, all lengths of lists, all sizes of the stack", "why_tests_cant": "cycles and very long lists are rare in tests; that nothing is kept besides what variables lead to is a statement about all graphs of values", "anchors": ["rpp/rc.h:37-131"]}
{"id": "C156", "title": "Heap operations take logarithmic time", "statement": "Adding an element to a heap of n elements takes at most log2 (n + 1) comparisons and swaps; removing the least one takes at most 4 log2 (n - 1) comparisons and log2 (n - 1) swaps. Sorting n elements takes at most 5 n log2 n comparisons.", "quantifier": "all sequences of pushes and pops, all lengths, all element types and comparison functions, orders or not", "why_tests_cant": "a test sees times, which depend on the machine; the worst case of a heap is rarely met by chosen inputs", "anchors": ["rpp/heap.h:138-174", "rpp/heap.h:205-252"]}
{"id": "C157", "title": "Containers inside of containers", "statement": "Programs that declare variables of types built from u64 with Vec, Box, Opt and Pair, nested in any way, and that move, clone, assign, pop and clear them and parts of them, have the same effect as on values, ending in the same failed checks and in nothing else. At all times every allocation has exactly one owner, and once all variables are out of scope nothing is allocated. An object may not be put into something that it is a part of.", "quantifier": "all types, all programs, all places in the variables", "why_tests_cant": "the number of types is infinite, as is the number of ways to move parts of objects around; leaks and double frees depend on which constructor and destructor of one template calls which of another", "anchors": ["rpp/vec.h:47-136", "rpp/vec.h:174-198", "rpp/box.h:38-82", "rpp/opt.h:32-98", "rpp/pair.h:37-62"]}
{"id": "C158", "title": "Descriptors and handles of events", "statement": "In every program that makes, moves, assigns (also to themselves) and destroys events, on Linux, macOS and Windows, each open descriptor has exactly one holder: one field of one event, or the rest of the program. No close fails or hits a descriptor of another holder, and once no event is left only what the rest of the program holds is open. Event::of_sys is given a descriptor that its caller holds.", "quantifier": "all programs, all unused numbers that the system may answer, including numbers that come back", "why_tests_cant": "a second close is an error only if the number has not come back meanwhile; otherwise it silently closes the descriptor of somebody else", "anchors": ["rpp/pos/async_pos.cpp:10-46", "rpp/pos/async_bsd.cpp:10-50", "rpp/w32/async_w32.cpp:11-42"]}
{"id": "C159", "title": "Containers have room for the capacity they report", "statement": "Whatever a program asks of a Vec, Heap or Queue (constructing with a capacity, making, reserving, resizing, extending, pushing, popping, clearing), the container's block has at least capacity() times sizeof(T) bytes, its length is what was asked for, and no access leaves the block.", "quantifier": "all programs, all element sizes, all requested capacities and lengths up to 2^64 - 1, all amounts of memory", "why_tests_cant": "capacity * sizeof(T) only wraps for requests that no test makes with a real expectation, and then the container looks right until an element is written past its small block", "anchors": ["rpp/vec.h:21-35", "rpp/vec.h:99-156", "rpp/heap.h:92-117", "rpp/queue.h:96-136"]}
{"id": "C160", "title": "Objects are placed where their type allows", "statement": "Every object made in the array of a container, in a Box, Rc, Arc, Variant or Function, or by Mpool, is at a multiple of its alignment and wholly inside of the memory for it, for objects of every type.", "quantifier": "all sizes and alignments that types can have, all addresses that malloc may answer with, all element positions, all lists of alternatives", "why_tests_cant": "tests use few types; misaligned vector types fault only with some instructions, and a type that does not compile is not in a test", "anchors": ["rpp/alloc1.h:26-63", "rpp/alloc0.h:33-50", "rpp/alloc0.h:177-181", "rpp/variant.h:120-147", "rpp/function.h:54-66", "rpp/storage.h:84", "rpp/rc.h:10-26"]}
{"id": "C161", "title": "Formatted floating point numbers read back", "statement": "Text of the form of a decimal number is read by parse_f32 as that number, rounded once, with the rest of the text. Every f32 that is printed by format and read again by parse_f32 is the same number, for all finite numbers, infinities and NaN, and whatever text follows that cannot belong to it.", "quantifier": "all decimal numbers of any length, all f32, all following texts", "why_tests_cant": "2^32 values, and most of those tried by hand have few decimals; reading back fails only below 16 where a millionth is coarser than the type", "anchors": ["rpp/format1.h:35-47", "rpp/format.h:94-95", "rpp/format.h:158-159"]}
{"id": "C162", "title": "Limits of types", "statement": "Limits<T> of each integer type are values of the type with all others between them. For f32 and f64 max is the largest finite number and min the lowest, smallest_norm is the smallest positive normal and smallest_denorm the smallest positive number, and epsilon is the distance from 1 to the next number. KB, MB and GB are the multiples of powers of two as long as these fit in 64 bits.", "quantifier": "all values of all types, all sums 1 + e", "why_tests_cant": "the constants are decimal numbers with 10 or 17 digits, which are right only after rounding, and there are 2^64 numbers of type f64", "anchors": ["rpp/limits.h:10-29", "rpp/limits.h:36-153", "rpp/math.h:44-52"]}
{"id": "C163", "title": "Views of vectors are the components they name", "statement": "The shorter vectors that xy, yz, zw, xyz and yzw of a vector give are the components of their letters, also through several of them. An operation on a view changes these components as the same operation on a vector of its own would, and no others, whether or not the operands overlap.", "quantifier": "all vectors, all sequences of assignments, compound operators, negations and accesses to components through all views", "why_tests_cant": "the views are references into the same memory that may overlap in part, and which order of reading and writing the components shows depends on the overlap", "anchors": ["rpp/vmath.h:375-386", "rpp/vmath.h:397-427", "rpp/vmath.h:439-469", "rpp/vmath.h:73-140"]}
{"id": "C164", "title": "Durations", "statement": "perf_counter counts nanoseconds on Linux and macOS, so that the difference of two readings is the time between them. Profile::ms and Profile::s convert a difference of readings to milliseconds and seconds with the accuracy of f32, keep the order of durations, and give zero for no duration only.", "quantifier": "all pairs of readings less than 584 years apart, all durations and frequencies of 64 bits", "why_tests_cant": "there are 2^128 pairs of duration and frequency, and the error adds up over five roundings", "anchors": ["rpp/impl/profile.cpp:6-16", "rpp/pos/thread_pos.cpp:57-69", "rpp/w32/thread_w32.cpp:25-41"]}
{"id": "C165", "title": "Map operations look at few slots", "statement": "A lookup looks at no more slots than there are entries, and one more; a key that is there costs exactly its distance from the index its hash asks for; a key that is not there costs at most two slots more than the longest such distance. Inserting and erasing look at no more slots than there are entries, and one more.", "quantifier": "all programs over a map, all hash functions, all keys", "why_tests_cant": "tests see results, not how many slots were read; a table with a bad pattern of hashes is rare", "anchors": ["rpp/map.h:252-271", "rpp/map.h:407-443", "rpp/map.h:445-462"]}
{"id": "C166", "title": "Products of matrices, vectors and quaternions are accurate", "statement": "The error of each component of Mat4 times Mat4, Vec4 and Vec3, of cross and of the product of quaternions is at most that of three, two and four roundings of the terms that are added; so with six for applying two matrices, in either order, eight for turning a vector by a quaternion and eight for the determinant. The unit matrix changes nothing and transposing reverses products exactly.", "quantifier": "all matrices, vectors and quaternions, all precisions", "why_tests_cant": "there are 2^1024 pairs of matrices, and the error shows in the last bits", "anchors": ["rpp/impl/vmath.cpp:91-145", "rpp/impl/vmath.cpp:308-317", "rpp/impl/vmath.cpp:357-375", "rpp/vmath.h:498-500", "rpp/vmath.h:720-723", "rpp/vmath.h:750-752"]}
{"id": "C167", "title": "Ranges come from the lowest class with room, and few blocks are looked at", "statement": "A range is taken from the front of a gap such that no gap of a lower size class has room for the request; unless the gaps are very short or of the last class it is less than twice as long as any gap with room. The search looks at no more gaps than there are of the classes from that of the size to that of the size plus the alignment less one, and one more.", "quantifier": "all histories of requests and releases, all requests with size plus alignment at most 2^64, fewer than 256 buckets, all heap sizes", "why_tests_cant": "the layout of the gaps depends on the whole history; tests see a few small ones, and a longer search gives the same offsets", "anchors": ["rpp/range_allocator.h:73-104", "rpp/range_allocator.h:225-250"]}
{"id": "C168", "title": "Formatted values can be told apart", "statement": "Two values of the same type that format makes the same text of are the same value; and in a longer text the text of a value shows where it ends.", "quantifier": "all types built from the formattable types to any depth, all values of them", "why_tests_cant": "there are infinitely many types and pairs of values, and a clash needs the text of one value to look like the structure around another", "anchors": ["rpp/format.h:32-191", "rpp/vec.h:278-300", "rpp/map.h:486-516", "rpp/opt.h:139-154", "rpp/box.h:119-134", "rpp/rc.h:252-291", "rpp/pair.h:85-99", "rpp/tuple.h:139-188", "rpp/variant.h:213-251"]}
{"id": "C169", "title": "Bounding boxes with rounding", "statement": "In floating point, as in exact numbers: the center of a nonempty box is in it; the surface area is never negative and off by no more than five roundings; the transformed box contains the transformed points of the box; and the rectangle of project contains the projected points.", "quantifier": "all boxes, all matrices, all points of the box, all precisions", "why_tests_cant": "the failures need sums whose rounding depends on the order of the terms, and the bounds are over all triples of reals", "anchors": ["rpp/vmath.h:803-863", "rpp/impl/vmath.cpp:363-368"]}
{"id": "C170", "title": "Write times and Write_Watcher on Windows", "statement": "before orders the times that last_write_time gives as the clock does; a watcher's poll returns true exactly if the file it was made for changed since the last successful look.", "quantifier": "all file times, all histories of files, of the memory of the path, and of polls", "why_tests_cant": "needs times that differ in one half only, unbounded histories, and text that is changed or given back while the watcher lives", "anchors": ["rpp/w32/files_w32.cpp:9-35", "rpp/files.h:19-47"]}
{"id": "C171", "title": "Thread ids, and threads that join each other", "statement": "Thread::id() of a thread is what this_id() gives inside of it and tells it from the others; a thread that joins itself is stopped, no other is; and threads that join each other do not get stuck.", "quantifier": "all platforms, all choices of handles and numbers, all histories of starts, joins, detaches and returns", "why_tests_cant": "handles and numbers are chosen by the system and used again; who waits for whom depends on the schedule", "anchors": ["rpp/thread.h:120-133", "rpp/pos/thread_pos.cpp:45-47,291-326", "rpp/w32/thread_w32.cpp:16-19,164-203"]}
{"id": "C172", "title": "The times in the log", "statement": "Each line on the console and in the log file shows the time of its call as [hh:mm:ss]; both have the same lines in the same order, and the lines are in the order of time.", "quantifier": "all schedules of any number of threads, all clocks and time zones, all uses of sys_time_string by callbacks", "why_tests_cant": "the order depends on the schedule, and the wrong time in the file needs a callback that shows another time", "anchors": ["rpp/impl/log.cpp:102-168"]}
{"id": "C173", "title": "Handles of coroutines", "statement": "The handle of a frame leads to its promise and the promise back to the frame; handles are equal exactly if they are of the same frame; a Task resumes the coroutine it was made by; the coroutine waiting for a task is the one resumed at its end; and the frame is destroyed by whichever of Task and coroutine ends last.", "quantifier": "all addresses, all alignments of promises, all states of the frames", "why_tests_cant": "needs results with an alignment above 16, and addresses cannot be enumerated", "anchors": ["rpp/std/coroutine.h:46-208", "rpp/async.h:45-200"]}
{"id": "C174", "title": "Changing a vector or a queue while iterating over it", "statement": "A loop over a vector or a queue whose body adds and removes elements is defined, and visits every element that was there at the start and is not removed before its turn, once and in order.", "quantifier": "all programs before the loop, all bodies made of push, pop and clear, plain and owning elements", "why_tests_cant": "depends on the capacity at the time of the loop; reading storage given back mostly finds the old bytes", "anchors": ["rpp/vec.h:106-113", "rpp/vec.h:174-198", "rpp/vec.h:227-238", "rpp/queue.h:144-186", "rpp/queue.h:271-332"]}
{"id": "C175", "title": "Matrices of quaternions with rounding", "statement": "Each entry of to_mat is off by at most two roundings of its terms, three on the diagonal. The conjugate gives exactly the transposed matrix, the negated quaternion exactly the same and Quat() exactly the unit matrix. Turning a vector by rotate and by the matrix differ by no more than 8 and 6 roundings and what the length is off from one. The length is exactly one for 24 quaternions only.", "quantifier": "all quaternions of floating point numbers, all vectors, all precisions", "why_tests_cant": "errors in the last bits, over 2^128 quaternions", "anchors": ["rpp/vmath.h:696-698", "rpp/vmath.h:734-736", "rpp/vmath.h:742-752", "rpp/impl/vmath.cpp:370-375"]}
{"id": "C176", "title": "The text of a socket error on Windows", "statement": "wsa_error gives the text the system has for the error, without the end of line, in UTF-8, or the number of the error if there is none; the text stays as it is while the view is in use.", "quantifier": "all tables of texts, all errors, all contents of the buffer", "why_tests_cant": "the tests run in one language and cause no socket errors", "anchors": ["rpp/w32/net_w32.cpp:10-33"]}
{"id": "C177", "title": "The text of a system error on Linux and macOS", "statement": "sys_error and the error texts of threads are the text the C library has for the error, or one that names its number; the text stays as it is while the view is in use.", "quantifier": "all tables of texts, all errors, all contents of the buffer", "why_tests_cant": "the tests cause no errors the library does not know, and do not run on macOS with any", "anchors": ["rpp/impl/log.cpp:82-91", "rpp/pos/thread_pos.cpp:24-33"]}
{"id": "C178", "title": "shuffle can give every order", "statement": "Every order of the elements of a vector is the result of shuffle for some states of the generator, and for the same number of states up to what the remainders of the draws make.", "quantifier": "all vectors of different elements, all orders, all 2^64 states", "why_tests_cant": "a test cannot shuffle from all states, and no test misses an order", "anchors": ["rpp/rng.h:45-51", "rpp/rng.h:58-62"]}
{"id": "C179", "title": "The perspective projection with rounding", "statement": "Depth and divisor of projected points are exact, their places on the screen within four roundings and their depths within one, at all distances; depths are above 0 and at most 1 behind the near plane, nearer points never have smaller depths, and have greater ones if the distances differ by more than two roundings.", "quantifier": "all angles, aspect ratios, near planes and points, all precisions", "why_tests_cant": "a test compares a few points with a tolerance; whether depths keep their order shows only in close pairs", "anchors": ["rpp/impl/vmath.cpp:238-248", "rpp/impl/vmath.cpp:357-361", "rpp/vmath.h:278-284"]}
{"id": "C180", "title": "Rotations composed one after the other", "statement": "A product of quaternions multiplied one after the other in floating point is near the exact product: distance and change of length grow with the number of products and no faster; after a thousand products in f32 they are below one part in two thousand.", "quantifier": "all lists of quaternions of any lengths, all precisions", "why_tests_cant": "a test multiplies few quaternions and cannot tell slow growth from fast", "anchors": ["rpp/vmath.h:709-711", "rpp/vmath.h:720-723"]}
{"id": "C181", "title": "Room reserved ahead is used", "statement": "After reserve(n) a container holds up to n elements without moving the ones it has and without asking for more memory.", "quantifier": "all programs before and after the reservation, all capacities, all hash functions", "why_tests_cant": "tests look at values, which are the same when the elements have moved", "anchors": ["rpp/vec.h:78-104", "rpp/vec.h:144-190", "rpp/queue.h:96-169", "rpp/heap.h:92-153", "rpp/map.h:155-177", "rpp/map.h:218-224"]}
{"id": "C182", "title": "Streams of random numbers keep apart", "statement": "Streams with different seeds, or made by different threads or at different times, have no numbers in common.", "quantifier": "all seeds, all numbers of draws, all threads and times", "why_tests_cant": "the streams that meet are few among 2^128 pairs of seeds", "anchors": ["rpp/rng.h:10-26", "rpp/hash.h:14-35", "rpp/hash.h:92-95"]}
{"id": "C183", "title": "Maps with the same contents look the same", "statement": "What can be seen of a map by lookups, iteration and length depends on its contents only, not on the order in which they were added, the capacity or the hash function.", "quantifier": "all reachable maps with all histories, all hash functions", "why_tests_cant": "tests compare a map with the expected contents and not with another map that has the same ones", "anchors": ["rpp/map.h:190-224", "rpp/map.h:340-404"]}
