{
 "claims": [
  {
   "property": "C12",
   "status": "proved",
   "theorems": [
    "Rpp.Props.C12_vec_refines_list"
   ],
   "note": "All programs over any number of Vec variables; preconditions violated iff assert."
  },
  {
   "property": "C13",
   "status": "proved",
   "theorems": [
    "Rpp.Props.C13_vec_owns_elements_once",
    "Rpp.Props.C13_vec_no_memory_error"
   ],
   "note": "Element lifetimes and blocks tracked by the memory model; destroying all variables leaves no block."
  },
  {
   "property": "C14",
   "status": "proved",
   "theorems": [
    "Rpp.Props.C14_push_own_element",
    "Rpp.Props.C14_emplace_own_element_is_ub"
   ],
   "note": "push(v[i]) for any representation state; contrast: emplace(v[i]) of a full vector is a use after free."
  },
  {
   "property": "C15",
   "status": "proved",
   "theorems": [
    "Rpp.Props.C15_stack_is_lifo"
   ],
   "note": "All push/pop/top/length/clear programs."
  },
  {
   "property": "C16",
   "status": "proved",
   "theorems": [
    "Rpp.Props.C16_queue_is_fifo"
   ],
   "note": "All programs over queue variables without clone/erase_first (those are C18, C19), with u64 wrap-around index arithmetic."
  },
  {
   "property": "C17",
   "status": "partial",
   "theorems": [
    "Rpp.Props.C17_queue_owns_elements_once_partial",
    "Rpp.Props.C19_erase_first_leaks",
    "Rpp.Props.C18_clone_nontrivial_false"
   ],
   "note": "Holds for all programs whose clone/erase_first calls are of the kind the code gets right; false otherwise (witnesses)."
  },
  {
   "property": "C18",
   "status": "partial",
   "theorems": [
    "Rpp.Props.C18_queue_clone_partial",
    "Rpp.Props.C18_clone_torn_all",
    "Rpp.Props.C18_clone_empty_all",
    "Rpp.Props.C18_clone_nontrivial_false",
    "Rpp.Props.C18_clone_empty_false"
   ],
   "note": "Proved for plain data; refuted for elements with clone/copy constructor (last element omitted, empty queue clones garbage), for every queue: the clone of each queue that is not empty lacks its last element, so that destroying it is undefined, and cloning an empty one with room for more than one element is undefined."
  },
  {
   "property": "C19",
   "status": "partial",
   "theorems": [
    "Rpp.Props.C19_erase_first_partial",
    "Rpp.Props.C19_erase_first_exact",
    "Rpp.Props.C19_erase_first_leaks_all",
    "Rpp.Props.C19_erase_first_false",
    "Rpp.Props.C19_erase_first_leaks"
   ],
   "note": "Proved when the value does not occur before the last position; refuted otherwise. Otherwise, the exact (wrong) result is proved for plain data, and that an element leaks for owning ones if at least two elements follow."
  },
  {
   "property": "C20",
   "status": "proved",
   "theorems": [
    "Rpp.Props.C20_heap_top_is_min",
    "Rpp.Props.C20_programs",
    "Rpp.Props.C20_top_empty_is_ub"
   ],
   "note": "All programs, any strict weak order. top() on an empty heap is unchecked (witness)."
  },
  {
   "property": "C21",
   "status": "proved",
   "theorems": [
    "Rpp.Props.C21_heap_drain_sorts",
    "Rpp.Props.C21_heap_drain_sorts_any"
   ],
   "note": "All lists, any strict weak order."
  },
  {
   "property": "C74",
   "status": "proved",
   "theorems": [
    "Rpp.Props.C74_heap_owns_elements_once",
    "Rpp.Props.C74_programs"
   ],
   "note": "All programs on one heap including h = h.clone(), and all programs over several heaps with construction from elements, moves (also onto itself), clones and scopes; precondition: no top() on an empty heap."
  },
  {
   "property": "C01",
   "status": "proved",
   "theorems": [
    "Rpp.Props.C01_next_pow2",
    "Rpp.Props.C01_next_pow2_overflow"
   ],
   "note": "Any word width; result 0 above 2^(w-1) also proved."
  },
  {
   "property": "C02",
   "status": "proved",
   "theorems": [
    "Rpp.Props.C02_log2",
    "Rpp.Props.C02_zero"
   ],
   "note": ""
  },
  {
   "property": "C03",
   "status": "proved",
   "theorems": [
    "Rpp.Props.C03_align",
    "Rpp.Props.C03_align_down",
    "Rpp.Props.C03_roundUp_exists"
   ],
   "note": ""
  },
  {
   "property": "C04",
   "status": "partial",
   "theorems": [
    "Rpp.Props.C04_pow_partial",
    "Rpp.Props.C04_pow_signed_partial",
    "Rpp.Props.C04_pow_u16_partial",
    "Rpp.Props.C04_pow_u16_mod",
    "Rpp.Props.C04_pow_i32_false",
    "Rpp.Props.C04_pow_u16_false",
    "Rpp.Props.C04_pow_negative_hangs"
   ],
   "note": "False as stated: for i32/i64 the last, unneeded, squaring of the base can overflow although the result is representable; u16 overflows through int promotion; a negative exponent loops forever. Proved for u8,u32,u64,i8,i16 and exactly characterised for i32,i64 and, for representable powers, u16."
  },
  {
   "property": "C05",
   "status": "proved",
   "theorems": [
    "Rpp.Props.C05_squirrel5_bijective",
    "Rpp.Props.C05_integer_hash_injective"
   ],
   "note": ""
  },
  {
   "property": "C06",
   "status": "proved",
   "theorems": [
    "Rpp.Props.C06_hash_nonzero",
    "Rpp.Props.C06_hash_literal"
   ],
   "note": ""
  },
  {
   "property": "C07",
   "status": "partial",
   "theorems": [
    "Rpp.Props.C07_equal_strings_hash_partial",
    "Rpp.Props.C07_same_bytes_same_hash",
    "Rpp.Props.C07_false",
    "Rpp.Props.C07_float_zero_false"
   ],
   "note": "False as stated: operator== uses strncmp and stops at an embedded zero byte, the hash does not. Proved when one string has no zero byte."
  },
  {
   "property": "C08",
   "status": "proved",
   "theorems": [
    "Rpp.Props.C08_order_insensitive",
    "Rpp.Props.C08_collision_iff"
   ],
   "note": ""
  },
  {
   "property": "C09",
   "status": "partial",
   "theorems": [
    "Rpp.Props.C09_shuffle_partial",
    "Rpp.Props.C09_empty_false"
   ],
   "note": "False for the empty vector (length()-1 wraps, then % 0). Proved for all non-empty vectors and all generator states."
  },
  {
   "property": "C10",
   "status": "partial",
   "theorems": [
    "Rpp.Props.C10_range_unsigned_partial",
    "Rpp.Props.C10_range_signed_partial",
    "Rpp.Props.C10_signed_exact",
    "Rpp.Props.C10_signed_only",
    "Rpp.Props.C10_signed_wide",
    "Rpp.Props.C10_signed_false"
   ],
   "note": "False for signed types (negative remainder; max-min overflow). Proved for every unsigned width. For signed types the number of states that leave the interval is given exactly, so that only intervals of one value are safe; longer than the type overflows always."
  },
  {
   "property": "C11",
   "status": "partial",
   "theorems": [
    "Rpp.Props.C11_unit_partial",
    "Rpp.Props.C11_false"
   ],
   "note": "False: the factors are 1e-24 and 1e-53 instead of 2^-24 and 2^-53, so every draw is below 1e-16. Proved: in [0,1). Floats are represented by rationals with a relative rounding error."
  },
  {
   "property": "C39",
   "status": "partial",
   "theorems": [
    "Rpp.Props.C39_eq_exact",
    "Rpp.Props.C39_eq_partial",
    "Rpp.Props.C39_false"
   ],
   "note": "False with embedded zero bytes (strncmp). Exact behaviour characterised; equality of contents proved when one side has no zero byte."
  },
  {
   "property": "C40",
   "status": "proved",
   "theorems": [
    "Rpp.Props.C40_lt_lexicographic",
    "Rpp.Props.C40_lt_strict_total_order"
   ],
   "note": ""
  },
  {
   "property": "C41",
   "status": "partial",
   "theorems": [
    "Rpp.Props.C41_split_rejoins",
    "Rpp.Props.C41_views_valid",
    "Rpp.Props.C41_suffix_partial",
    "Rpp.Props.C41_extension_partial",
    "Rpp.Props.C41_extension_cut",
    "Rpp.Props.C41_first_byte",
    "Rpp.Props.C41_false"
   ],
   "note": "Rejoining holds for all strings. The separator at index 0 is never inspected ('/foo'), and file_extension of a name without a dot is the name."
  },
  {
   "property": "C42",
   "status": "partial",
   "theorems": [
    "Rpp.Props.C42_sub",
    "Rpp.Props.C42_set_length",
    "Rpp.Props.C42_append",
    "Rpp.Props.C42_terminate",
    "Rpp.Props.C42_write_partial",
    "Rpp.Props.C42_write_char",
    "Rpp.Props.C42_slice_sub_partial",
    "Rpp.Props.C42_copies",
    "Rpp.Props.C42_write_false",
    "Rpp.Props.C42_write_wraps"
   ],
   "note": "write and Slice::sub check a sum that can wrap: write(2^64-1, 'a') writes before the buffer. Everything else proved."
  },
  {
   "property": "C75",
   "status": "proved",
   "theorems": [
    "Rpp.Props.C75_clamp_min_max",
    "Rpp.Props.C75_min_list"
   ],
   "note": ""
  },
  {
   "property": "C76",
   "status": "proved",
   "theorems": [
    "Rpp.Props.C76_abs"
   ],
   "note": ""
  },
  {
   "property": "C22",
   "status": "proved",
   "theorems": [
    "Rpp.Props.C22_map_is_finite_map",
    "Rpp.Props.C22_map_with_capacity"
   ],
   "note": "All programs on one map from Map() or Map(n), n != 1, without reserve(1); any hash function into 64 bits; memory exhaustion only when the demand exceeds the limit. Slots are moved whole, so construction/destruction of the stored pair is not tracked."
  },
  {
   "property": "C23",
   "status": "partial",
   "theorems": [
    "Rpp.Props.C23_length_partial",
    "Rpp.Props.C23_length_exact",
    "Rpp.Props.C23_length_false"
   ],
   "note": "False as stated: inserting a present key still increments length_. Proved for programs that never insert a present key; in general length() is the number of insertions, repeated ones too, less erasures (C23_length_exact)."
  },
  {
   "property": "C24",
   "status": "proved",
   "theorems": [
    "Rpp.Props.C24_iteration"
   ],
   "note": "All reachable maps."
  },
  {
   "property": "C25",
   "status": "proved",
   "theorems": [
    "Rpp.Props.C25_erase"
   ],
   "note": "All reachable maps."
  },
  {
   "property": "C26",
   "status": "proved",
   "theorems": [
    "Rpp.Props.C26_reserve"
   ],
   "note": "All reachable maps and all capacities except 1 (see C27)."
  },
  {
   "property": "C27",
   "status": "partial",
   "theorems": [
    "Rpp.Props.C27_terminates_partial",
    "Rpp.Props.C27_capacity_one_hangs",
    "Rpp.Props.C27_full_table_hangs"
   ],
   "note": "False as stated: Map(1) followed by three insertions never returns (proved for every number of steps). Proved for every map that was not asked for capacity 1."
  },
  {
   "property": "C28",
   "status": "partial",
   "theorems": [
    "Rpp.Props.C28_clone_partial",
    "Rpp.Props.C28_clone_iterates",
    "Rpp.Props.C28_clone_false"
   ],
   "note": "False as stated: after reserve(33) the clone has another capacity and lookups in it fail. Proved for capacities that are powers of two; for all others the clone still lists the same entries."
  },
  {
   "property": "C29",
   "status": "proved",
   "theorems": [
    "Rpp.Props.C29_get_or_insert"
   ],
   "note": "All reachable maps."
  },
  {
   "property": "C30",
   "status": "partial",
   "theorems": [
    "Rpp.Props.C30_ranges_partial",
    "Rpp.Props.C30_start_partial",
    "Rpp.Props.C30_progress_partial",
    "Rpp.Props.C30_ranges_false",
    "Rpp.Props.C30_full_hangs"
   ],
   "note": "All histories of allocate/free (each free of a range in use), any heap size and Bias, fewer than 256 Buckets, size+align <= 2^64. False beyond: size+padding wraps and a range longer than the heap is granted. With 256 or more Buckets a request on a full heap never returns (the index is a u8)."
  },
  {
   "property": "C31",
   "status": "partial",
   "theorems": [
    "Rpp.Props.C31_aligned_partial"
   ],
   "note": "All histories, size+align <= 2^64 and fewer than 256 Buckets (see C30)."
  },
  {
   "property": "C32",
   "status": "partial",
   "theorems": [
    "Rpp.Props.C32_clear_partial",
    "Rpp.Props.C32_in_use_dies_partial"
   ],
   "note": "All histories that end with no range in use, size+align <= 2^64 and fewer than 256 Buckets (see C30)."
  },
  {
   "property": "C33",
   "status": "partial",
   "theorems": [
    "Rpp.Props.C33_fails_only_if_full_partial",
    "Rpp.Props.C33_gap_suffices_partial"
   ],
   "note": "All histories, size+align <= 2^64 and fewer than 256 Buckets (see C30). Padding counts as used."
  },
  {
   "property": "C34",
   "status": "partial",
   "theorems": [
    "Rpp.Props.C34_statistics_partial",
    "Rpp.Props.C34_totals_partial",
    "Rpp.Props.C30_ranges_false"
   ],
   "note": "All histories, size+align <= 2^64 and fewer than 256 Buckets; the witness for C30 also shows an allocated_size that is not the sum over the ranges."
  },
  {
   "property": "C35",
   "status": "partial",
   "theorems": [
    "Rpp.Props.C35_valid_partial",
    "Rpp.Props.C35_alloc_progress_partial",
    "Rpp.Props.C35_valid_false",
    "Rpp.Props.C35_huge"
   ],
   "note": "One thread; proved for every sequence of begin, allocate and end with requests below 2^63 bytes. Chunk contents are not modelled. For requests close to 2^64 the size computation wraps and the property is false (C35_valid_false)."
  },
  {
   "property": "C36",
   "status": "proved",
   "theorems": [
    "Rpp.Props.C36_end_restores",
    "Rpp.Props.C36_chunks",
    "Rpp.Props.C36_all_returned"
   ],
   "note": "For the sequences of C35 (a request that wraps is outside of them)."
  },
  {
   "property": "C37",
   "status": "proved",
   "theorems": [
    "Rpp.Props.C37_wrong_brand",
    "Rpp.Props.C37_end_outside",
    "Rpp.Props.C37_depth"
   ],
   "note": "Brands are distinct numbers per region type; recursion through the same brand is not distinguished by the code."
  },
  {
   "property": "C38",
   "status": "proved",
   "theorems": [
    "Rpp.Props.C38_free_list"
   ],
   "note": "Single thread; Base is any source of unused addresses."
  },
  {
   "property": "C43",
   "status": "proved",
   "theorems": [
    "Rpp.Props.C43_measure_write",
    "Rpp.Props.C43_format_fills",
    "Rpp.Props.C43_render",
    "Rpp.Props.C43_render_map_length_false"
   ],
   "note": "All nested values of a tree of formattable types; libc snprintf is taken to print what the C standard says. A map whose length() is wrong (C23) prints a trailing comma, consistently in both passes."
  },
  {
   "property": "C44",
   "status": "proved",
   "theorems": [
    "Rpp.Props.C44_format",
    "Rpp.Props.C44_format_mismatch"
   ],
   "note": "Results shorter than 2^63 bytes."
  },
  {
   "property": "C45",
   "status": "proved",
   "theorems": [
    "Rpp.Props.C45_concat"
   ],
   "note": "Results shorter than 2^63 bytes."
  },
  {
   "property": "C46",
   "status": "proved",
   "theorems": [
    "Rpp.Props.C46_roundtrip",
    "Rpp.Props.C46_number",
    "Rpp.Props.C46_nothing"
   ],
   "note": "strtoll is modelled after the C standard."
  },
  {
   "property": "C47",
   "status": "partial",
   "theorems": [
    "Rpp.Props.C47_token_partial",
    "Rpp.Props.C47_blank",
    "Rpp.Props.C47_false_single",
    "Rpp.Props.C47_false_trailing"
   ],
   "note": "False of the code for a one-byte token at the end of the input and for exactly one trailing white space byte; proved for all other inputs."
  },
  {
   "property": "C48",
   "status": "partial",
   "theorems": [
    "Rpp.Props.C48_enum_partial",
    "Rpp.Props.C48_false",
    "Rpp.Props.C48_exact"
   ],
   "note": "Proved for names of at least two bytes; false of the code for one-byte names."
  },
  {
   "property": "C49",
   "status": "partial",
   "theorems": [
    "Rpp.Props.C49_counts_partial",
    "Rpp.Props.C49_last_handle_partial",
    "Rpp.Props.C49_operations_partial",
    "Rpp.Props.C49_read_partial",
    "Rpp.Props.C49_false",
    "Rpp.Props.C49_false_general"
   ],
   "note": "Counts equal the live handles, the object is destroyed exactly when the last handle goes, no operation touches a dead object, for every legal program over handles in variables and inside objects. Missing: move assignment from a handle stored inside the object that the assigned handle is the last owner of (head = move(head->next)); there the code reads freed memory, and C49_false/C49_false_general prove it."
  },
  {
   "property": "C50",
   "status": "proved",
   "theorems": [
    "Rpp.Props.C50_arc",
    "Rpp.Props.C50_finishes"
   ],
   "note": "Any number of threads, any schedule of dup, drop, move, use: no use after free, destroyed exactly once, after the last handle. One block; fewer than 2^63 handles."
  },
  {
   "property": "C53",
   "status": "partial",
   "theorems": [
    "Rpp.Props.C53_safe_partial",
    "Rpp.Props.C53_returns_partial",
    "Rpp.Props.C53_false"
   ],
   "note": "Linux futex version, any number of threads, every schedule with spurious wake-ups. Missing: a waiter interrupted by a signal handler, where block ends the program on EINTR (C53_false)."
  },
  {
   "property": "C54",
   "status": "partial",
   "theorems": [
    "Rpp.Props.C54_value_partial",
    "Rpp.Props.C54_returns",
    "Rpp.Props.C54_first_only",
    "Rpp.Props.C54_false"
   ],
   "note": "Every schedule of one fill and any number of blocks: nobody reads an unfilled slot, the first reader gets the value, readers of plain data all do. Missing: several readers of an owning type, where the later ones get a moved-from value (C54_false)."
  },
  {
   "property": "C55",
   "status": "proved",
   "theorems": [
    "Rpp.Props.C55_frame",
    "Rpp.Props.C55_destroyed"
   ],
   "note": "Every interleaving of the coroutine, any number of awaiting and blocking users and the owner, who destroys the Task only while nobody is using it."
  },
  {
   "property": "C56",
   "status": "partial",
   "theorems": [
    "Rpp.Props.C56_awaiter_partial",
    "Rpp.Props.C56_finishes",
    "Rpp.Props.C56_second",
    "Rpp.Props.C56_false"
   ],
   "note": "Proved for at most one awaiting coroutine with any number of blocking threads. Missing: several awaiting coroutines; the second one goes on without a result (C56_false)."
  },
  {
   "property": "C57",
   "status": "partial",
   "theorems": [
    "Rpp.Props.C57_jobs_partial",
    "Rpp.Props.C57_runs",
    "Rpp.Props.C57_shutdown",
    "Rpp.Props.C57_false"
   ],
   "note": "Any number of workers (at least one) and submitting threads, every schedule with spurious wake-ups and any choice of queue: first in first out, exactly once, no lost wake-up, every job taken after a bounded number of steps of its worker, the destructor cannot deadlock. Missing: one hardware thread, where the first job divides by zero (C57_false)."
  },
  {
   "property": "C58",
   "status": "proved",
   "theorems": [
    "Rpp.Props.C58_pairs",
    "Rpp.Props.C58_fired"
   ],
   "note": "Every history of registrations, firings, steps of the event thread and shutdown; descriptors may be reused after they are closed."
  },
  {
   "property": "C59",
   "status": "proved",
   "theorems": [
    "Rpp.Props.C59_placement",
    "Rpp.Props.C59_many"
   ],
   "note": "Up to the 65 hardware threads the constructor allows; cores taken to be numbered from 0 to the number of hardware threads."
  },
  {
   "property": "C51",
   "status": "partial",
   "theorems": [
    "Rpp.Props.C51_histories_partial",
    "Rpp.Props.C51_all_destroyed_partial",
    "Rpp.Props.C51_false",
    "Rpp.Props.C51_self_undefined"
   ],
   "note": "Any program over any number of Opt variables, with moves to itself, copies and clones. Missing: o = move(*o) on an owning payload, which reads a destroyed payload (C51_false)."
  },
  {
   "property": "C52",
   "status": "partial",
   "theorems": [
    "Rpp.Props.C52_dispatch",
    "Rpp.Props.C52_histories_partial",
    "Rpp.Props.C52_false",
    "Rpp.Props.C52_self_exact"
   ],
   "note": "Any list of up to 255 alternatives, any program over any number of variables. Missing: v = move(v), which loses the value or is undefined (C52_false)."
  },
  {
   "property": "C60",
   "status": "proved",
   "theorems": [
    "Rpp.Props.C60_stats",
    "Rpp.Props.C60_balanced",
    "Rpp.Props.C60_leaks"
   ],
   "note": "Any number of threads and names, every interleaving of the steps of alloc and free; fewer than 2^63 bytes asked for in total."
  },
  {
   "property": "C61",
   "status": "partial",
   "theorems": [
    "Rpp.Props.C61_tree",
    "Rpp.Props.C61_self",
    "Rpp.Props.C61_times_partial",
    "Rpp.Props.C61_exact",
    "Rpp.Props.C61_false"
   ],
   "note": "The tree has exactly one node per path entered and self times are right, for all frames. Counts and inclusive times are right for paths that were entered at most once and have no sub-path entered twice; they are wrong otherwise: enter updates the parent on a repeated entry. C61_exact says what is recorded in every case."
  },
  {
   "property": "C62",
   "status": "proved",
   "theorems": [
    "Rpp.Props.C62_history",
    "Rpp.Props.C62_timings",
    "Rpp.Props.C62_finalize",
    "Rpp.Props.C62_finalize_dies"
   ],
   "note": "All operation sequences of a thread over the Queue model; memory for eight frames available. C62_finalize_dies records that ending a thread inside a frame always stops the program."
  },
  {
   "property": "C77",
   "status": "partial",
   "theorems": [
    "Rpp.Props.C77_since_partial",
    "Rpp.Props.C77_false"
   ],
   "note": "Right unless a scope was entered twice directly under the previous frame; then enter has moved the previous frame's begin."
  },
  {
   "property": "C63",
   "status": "proved",
   "theorems": [
    "Rpp.Props.C63_delivery"
   ],
   "note": "All histories of subscribing, unsubscribing and logging over the Map model, memory for the operations available. A history ends early only at an unknown token or at a subscriber that uses the log, see C78."
  },
  {
   "property": "C78",
   "status": "partial",
   "theorems": [
    "Rpp.Props.C78_returns_partial",
    "Rpp.Props.C78_hangs",
    "Rpp.Props.C78_false"
   ],
   "note": "No call hangs unless a token is unknown or a subscriber uses the log. In these two cases the call takes the lock it already holds: die logs its message while unsubscribe holds the log's lock, and output holds it during delivery."
  },
  {
   "property": "C64",
   "status": "partial",
   "theorems": [
    "Rpp.Props.C64_never_writes",
    "Rpp.Props.C64_false"
   ],
   "note": "The property is false of the code: Files::write opens the file for reading only, so it fails for every path, data and kernel answer (C64_never_writes), and leaves a descriptor open."
  },
  {
   "property": "C65",
   "status": "partial",
   "theorems": [
    "Rpp.Props.C65_read_partial",
    "Rpp.Props.C65_short",
    "Rpp.Props.C65_error_leaks",
    "Rpp.Props.C65_false"
   ],
   "note": "Exact for regular files read in one piece. Short reads are reported as success with a zero-filled tail, errors leave the descriptor open, files of unknown size read as empty."
  },
  {
   "property": "C66",
   "status": "partial",
   "theorems": [
    "Rpp.Props.C66_poll_partial",
    "Rpp.Props.C66_same_second",
    "Rpp.Props.C66_false"
   ],
   "note": "Exact for all histories of time stamps after 1970. Changes within one second and time stamps before 1970 are missed."
  },
  {
   "property": "C67",
   "status": "partial",
   "theorems": [
    "Rpp.Props.C67_no_double_close",
    "Rpp.Props.C67_closed_partial",
    "Rpp.Props.C67_false",
    "Rpp.Props.C67_lost",
    "Rpp.Props.C67_exact",
    "Rpp.Props.C67_recv_partial",
    "Rpp.Props.C67_recv_false",
    "Rpp.Props.C67_send"
   ],
   "note": "Never closed twice, for all programs; all closed if no socket in use is assigned to. Move assignment loses the old descriptor, for every program that does it, and only then; receive errors and oversized datagrams are reported with lengths beyond the packet."
  },
  {
   "property": "C68",
   "status": "partial",
   "theorems": [
    "Rpp.Props.C68_wait_partial",
    "Rpp.Props.C68_false"
   ],
   "note": "Right for every positive delay within the kernel's clock range; the delay zero never ends."
  },
  {
   "property": "C79",
   "status": "partial",
   "theorems": [
    "Rpp.Props.C79_write_partial",
    "Rpp.Props.C79_short",
    "Rpp.Props.C79_error",
    "Rpp.Props.C79_false"
   ],
   "note": "Right when the kernel takes all data at once. Short writes are reported as success, errors leave the descriptor open, new files get arbitrary permissions."
  },
  {
   "property": "C80",
   "status": "partial",
   "theorems": [
    "Rpp.Props.C80_owned",
    "Rpp.Props.C80_self_assign",
    "Rpp.Props.C80_wait_partial",
    "Rpp.Props.C80_false",
    "Rpp.Props.C80_wait_exact"
   ],
   "note": "Ownership for all programs; wait_any for different valid descriptors without signal handlers. A signal handler, a moved-from event or a repeated descriptor end the program, and nothing else does."
  },
  {
   "property": "C81",
   "status": "partial",
   "theorems": [
    "Rpp.Props.C81_signal_partial",
    "Rpp.Props.C81_false",
    "Rpp.Props.C81_exact"
   ],
   "note": "Readiness is right for every sequence in which resets follow signals. try_wait always answers false; every reset that does not directly follow a signal ends the program."
  },
  {
   "property": "C69",
   "status": "proved",
   "theorems": [
    "Rpp.Props.C69_matrix",
    "Rpp.Props.C69_compose",
    "Rpp.Props.C69_points",
    "Rpp.Props.C69_affine"
   ],
   "note": "All operators of Mat4 are those of 4x4 matrices over any field."
  },
  {
   "property": "C70",
   "status": "proved",
   "theorems": [
    "Rpp.Props.C70_inverse",
    "Rpp.Props.C70_invertible"
   ],
   "note": "For every matrix with nonzero determinant over any field, the clang code path."
  },
  {
   "property": "C82",
   "status": "proved",
   "theorems": [
    "Rpp.Props.C82_scale_translate",
    "Rpp.Props.C82_swap_x_z",
    "Rpp.Props.C82_rotate",
    "Rpp.Props.C82_rotation"
   ],
   "note": "Rodrigues' formula for every axis, cosine and sine."
  },
  {
   "property": "C83",
   "status": "partial",
   "theorems": [
    "Rpp.Props.C83_ortho_partial",
    "Rpp.Props.C83_depth",
    "Rpp.Props.C83_false"
   ],
   "note": "Right for x and y; the depth mixes two conventions and is wrong for every near and far plane except in degenerate cases."
  },
  {
   "property": "C84",
   "status": "proved",
   "theorems": [
    "Rpp.Props.C84_look_at"
   ],
   "note": "For every eye, target and up vector not in line, with exact square roots."
  },
  {
   "property": "C85",
   "status": "partial",
   "theorems": [
    "Rpp.Props.C85_rotate_y_partial",
    "Rpp.Props.C85_reflection",
    "Rpp.Props.C85_z",
    "Rpp.Props.C85_false"
   ],
   "note": "rotate_y_to is right away from -y, where it gives a reflection; rotate_z_to takes the z axis to the opposite direction."
  },
  {
   "property": "C71",
   "status": "partial",
   "theorems": [
    "Rpp.Props.C71_quaternion",
    "Rpp.Props.C71_algebra",
    "Rpp.Props.C71_rotate",
    "Rpp.Props.C71_rotate_pure",
    "Rpp.Props.C71_axis_angle",
    "Rpp.Props.C71_inverse_partial",
    "Rpp.Props.C71_false"
   ],
   "note": "Everything for all quaternions except the inverse: q * inverse(q) is the norm of q."
  },
  {
   "property": "C72",
   "status": "proved",
   "theorems": [
    "Rpp.Props.C72_enclose",
    "Rpp.Props.C72_empty",
    "Rpp.Props.C72_transform",
    "Rpp.Props.C72_image",
    "Rpp.Props.C72_center"
   ],
   "note": "The hull of any list of points and nonempty boxes; transform gives the smallest box for every matrix."
  },
  {
   "property": "C73",
   "status": "partial",
   "theorems": [
    "Rpp.Props.C73_ops",
    "Rpp.Props.C73_left_partial",
    "Rpp.Props.C73_swapped",
    "Rpp.Props.C73_neg",
    "Rpp.Props.C73_false"
   ],
   "note": "Right for all operators, types and lengths except scalar - vector and scalar / vector with SIMD, which swap their operands, and unary minus, which changes its operand."
  },
  {
   "property": "C86",
   "status": "proved",
   "theorems": [
    "Rpp.Props.C86_eq",
    "Rpp.Props.C86_map",
    "Rpp.Props.C86_minmax"
   ],
   "note": "All element types and lengths, with and without SIMD."
  },
  {
   "property": "C87",
   "status": "proved",
   "theorems": [
    "Rpp.Props.C87_dot",
    "Rpp.Props.C87_extreme",
    "Rpp.Props.C87_lerp",
    "Rpp.Props.C87_unit"
   ],
   "note": "All lengths over any ordered field."
  },
  {
   "property": "C88",
   "status": "partial",
   "theorems": [
    "Rpp.Props.C88_euler_partial",
    "Rpp.Props.C88_euler_real_partial",
    "Rpp.Props.C88_false"
   ],
   "note": "Right for all angles other than (180, 0, 0), for which the half turn about z is returned."
  },
  {
   "property": "C89",
   "status": "partial",
   "theorems": [
    "Rpp.Props.C89_to_euler_partial",
    "Rpp.Props.C89_to_euler_real_partial"
   ],
   "note": "Right for every rotation unless the tilt is within EPS of gimbal lock without being there, where the code rounds to it."
  },
  {
   "property": "C90",
   "status": "proved",
   "theorems": [
    "Rpp.Props.C90_proj"
   ],
   "note": "For every point not in the plane of the camera."
  },
  {
   "property": "C91",
   "status": "partial",
   "theorems": [
    "Rpp.Props.C91_nonempty_partial",
    "Rpp.Props.C91_everything",
    "Rpp.Props.C91_false"
   ],
   "note": "Boxes with points keep some; the identity turns the default empty box into the box of everything."
  },
  {
   "property": "C92",
   "status": "partial",
   "theorems": [
    "Rpp.Props.C92_project_partial",
    "Rpp.Props.C92_behind",
    "Rpp.Props.C92_false"
   ],
   "note": "Right for affine projections with all corners in front. Perspective matrices are applied without dividing."
  },
  {
   "property": "C93",
   "status": "proved",
   "theorems": [
    "Rpp.Props.C93_map_owns_pairs_once",
    "Rpp.Props.C93_map_no_memory_error",
    "Rpp.Props.C93_map_pairs_accounted",
    "Rpp.Props.C93_map_in_storage_is_finite_map"
   ],
   "note": "For every program over several maps, including capacity 1 and self-moves. A loop that does not end (C27) is the outcome hang. Assignment through a reference counts as the end of one pair and the start of another."
  },
  {
   "property": "C94",
   "status": "partial",
   "theorems": [
    "Rpp.Props.C94_box_is_value_partial",
    "Rpp.Props.C94_one_owner_partial",
    "Rpp.Props.C94_all_destroyed_partial",
    "Rpp.Props.C94_assign_from_inside_ub",
    "Rpp.Props.C94_assign_into_itself_leaks",
    "Rpp.Props.C94_emplace_own_value_ub"
   ],
   "note": "For all programs that do not assign between two links of the same list and do not emplace a box's own value. For the rest it is false: assigning a link from further down its own list and emplacing the own value are undefined in every state, and assigning a list into its own link leaks it."
  },
  {
   "property": "C95",
   "status": "partial",
   "theorems": [
    "Rpp.Props.C95_calls",
    "Rpp.Props.C95_released_once",
    "Rpp.Props.C95_moved_from_never_destroyed",
    "Rpp.Props.C95_false"
   ],
   "note": "Calls and the release of captures are right for all programs. The object a closure was moved from is never destroyed, one per move; this is harmless only for types whose moved-from state owns nothing."
  },
  {
   "property": "C96",
   "status": "proved",
   "theorems": [
    "Rpp.Props.C96_spawn_lifetime",
    "Rpp.Props.C96_result",
    "Rpp.Props.C96_thread_ends",
    "Rpp.Props.C96_block_returns"
   ],
   "note": "The function called is one step that yields a value and does not itself use the future. Waits are not interrupted by signals (see C53 for those); starting and detaching the thread succeed. The closure's allocator is not modelled."
  },
  {
   "property": "C97",
   "status": "proved",
   "theorems": [
    "Rpp.Props.C97_defined",
    "Rpp.Props.C97_null_dies",
    "Rpp.Props.C97_one_handle",
    "Rpp.Props.C97_none_outlives",
    "Rpp.Props.C97_join_waits",
    "Rpp.Props.C97_self_assign_joins"
   ],
   "note": "One thread owns the handles; system calls succeed where POSIX defines them; a thread joining itself is left out. Assigning a handle to itself waits for the thread and empties the handle (C97_self_assign_joins)."
  },
  {
   "property": "C98",
   "status": "proved",
   "theorems": [
    "Rpp.Props.C98_one_byte_changes_hash",
    "Rpp.Props.C98_same_suffix"
   ],
   "note": "Found missing by a seeded bug that folds the case of characters before hashing and broke no earlier theorem."
  },
  {
   "property": "C99",
   "status": "proved",
   "theorems": [
    "Rpp.Props.C99_popcount_counts",
    "Rpp.Props.C99_popcount_one"
   ],
   "note": "The compiler builtin is modelled by a loop over the bits; the theorem relates the loop to the set of one bits. Found missing by a seeded bug."
  },
  {
   "property": "C100",
   "status": "proved",
   "theorems": [
    "Rpp.Props.C100_case",
    "Rpp.Props.C100_fold",
    "Rpp.Props.C100_whitespace"
   ],
   "note": "The domain is finite and the proof covers all of it. Found missing by seeded bugs."
  },
  {
   "property": "C101",
   "status": "partial",
   "theorems": [
    "Rpp.Props.C101_destructor_exact",
    "Rpp.Props.C101_destructor_frees_all",
    "Rpp.Props.C101_live_ranges_leak"
   ],
   "note": "True if all ranges were freed. The records of ranges in use are never given back: reset walks the free lists only. Requests with size+align <= 2^64, fewer than 256 Buckets (see C30)."
  },
  {
   "property": "C102",
   "status": "partial",
   "theorems": [
    "Rpp.Props.C102_move_contents_partial",
    "Rpp.Props.C102_moved_unusable",
    "Rpp.Props.C102_move_reached",
    "Rpp.Props.C102_self_move",
    "Rpp.Props.C102_move_ctor"
   ],
   "note": "The contents are handed over, but false as stated: the assignment runs the destructor of its target and no constructor, so the mutex of every allocator that was moved into is destroyed; each later operation, its own destructor included, locks it, which is undefined (glibc: the program dies)."
  },
  {
   "property": "C103",
   "status": "partial",
   "theorems": [
    "Rpp.Props.C103_get_view_partial",
    "Rpp.Props.C103_get_view_null_false"
   ],
   "note": "True for maps that have a table. On a map without one (never inserted into) get(String_View) reads through the null table where get reports the missing key. Keys are compared by an equality that agrees with the hash (see C07, C39). Found missing by a seeded bug."
  },
  {
   "property": "C104",
   "status": "proved",
   "theorems": [
    "Rpp.Props.C104_skip_whitespace"
   ],
   "note": "Found missing by a seeded bug."
  },
  {
   "property": "C105",
   "status": "partial",
   "theorems": [
    "Rpp.Props.C105_safe_partial",
    "Rpp.Props.C105_returns_partial",
    "Rpp.Props.C105_wraps",
    "Rpp.Props.C105_false"
   ],
   "note": "Proved for fewer than 2^16 signals of one flag. False beyond: signal increments an i16, so after 2^16 signals it is zero again, ready denies all of them and block sleeps."
  },
  {
   "property": "C106",
   "status": "proved",
   "theorems": [
    "Rpp.Props.C106_safe",
    "Rpp.Props.C106_returns",
    "Rpp.Props.C106_calls_end"
   ],
   "note": "The mutex excludes and the condition variable wakes all waiters; spurious wake-ups are allowed."
  },
  {
   "property": "C107",
   "status": "partial",
   "theorems": [
    "Rpp.Props.C107_last_partial",
    "Rpp.Props.C107_others_missed",
    "Rpp.Props.C107_no_event"
   ],
   "note": "Proved of the last event of the list. False of the others: the changes are all registered in one slot, so only the last event is waited for. The kernel (kqueue) is modelled."
  },
  {
   "property": "C108",
   "status": "partial",
   "theorems": [
    "Rpp.Props.C108_count_partial",
    "Rpp.Props.C108_false",
    "Rpp.Props.C108_exact"
   ],
   "note": "Signals and resets are counted in a pipe: proved for sequences that never reset more than they signal. Otherwise reset waits for ever, two signals survive one reset, and signal waits when the pipe is full."
  },
  {
   "property": "C109",
   "status": "partial",
   "theorems": [
    "Rpp.Props.C109_event_partial",
    "Rpp.Props.C109_false"
   ],
   "note": "Proved for up to 64 events that were not moved from; with more the program dies. The kernel (WaitForMultipleObjects) is modelled."
  },
  {
   "property": "C110",
   "status": "partial",
   "theorems": [
    "Rpp.Props.C110_sleep_partial",
    "Rpp.Props.C110_false"
   ],
   "note": "The exact range is proved: below 2^32 microseconds (POSIX), 2^32-1 milliseconds (Windows). Longer times are cut off; 2^32-1 ms on Windows is for ever. usleep and Sleep are modelled by the time they are asked for."
  },
  {
   "property": "C111",
   "status": "proved",
   "theorems": [
    "Rpp.Props.C111_name",
    "Rpp.Props.C111_distinct"
   ],
   "note": "For every size but zero (no type has size zero)."
  },
  {
   "property": "C112",
   "status": "proved",
   "theorems": [
    "Rpp.Props.C112_safe",
    "Rpp.Props.C112_kept",
    "Rpp.Props.C112_finishes",
    "Rpp.Props.C112_all_returned"
   ],
   "note": "The steps inside the lock are separate events, so the proof depends on the mutex. The pthread mutex is modelled; the system allocator never fails and returns unused addresses."
  },
  {
   "property": "C113",
   "status": "partial",
   "theorems": [
    "Rpp.Props.C113_then_partial",
    "Rpp.Props.C113_finished_task",
    "Rpp.Props.C113_ends_early",
    "Rpp.Props.C113_false"
   ],
   "note": "Proved if the full expression lasts until f was called (co_await t.then(f), t.then(f).block()) or t is finished at the call. Otherwise false: then is a coroutine that keeps the address of t and a reference to f, so with a temporary f the call is undefined, and with a temporary t the program ends."
  },
  {
   "property": "C114",
   "status": "partial",
   "theorems": [
    "Rpp.Props.C114_read_partial",
    "Rpp.Props.C114_read_all",
    "Rpp.Props.C114_size_leaks",
    "Rpp.Props.C114_write_partial",
    "Rpp.Props.C114_write_all",
    "Rpp.Props.C114_write_dies",
    "Rpp.Props.C114_false"
   ],
   "note": "Proved for files and data below 4 GiB transferred completely; for all answers of the system, what is returned and stored and which handles stay open is given exactly. False in general: a handle stays open if the size is not told; short transfers count as success; 4 GiB and more stop the program; the number of bytes is passed as null without OVERLAPPED, which the documentation forbids."
  },
  {
   "property": "C115",
   "status": "partial",
   "theorems": [
    "Rpp.Props.C115_read_partial",
    "Rpp.Props.C115_read_all",
    "Rpp.Props.C115_write_partial",
    "Rpp.Props.C115_write_large",
    "Rpp.Props.C115_write_all",
    "Rpp.Props.C115_false"
   ],
   "note": "Handles: proved for all answers of the system. Contents: proved for reads up to 2^32 - 4096 bytes and writes below 2 GiB whose transfer is pending and then complete. False in general: a transfer complete at once is reported as failure, a failed one as success with zeros; data from 2 GiB up are reported as failure and the file is left with up to 4095 extra zeros, because the file pointer is moved by a signed 32-bit distance."
  },
  {
   "property": "C116",
   "status": "partial",
   "theorems": [
    "Rpp.Props.C116_wait_partial",
    "Rpp.Props.C116_false"
   ],
   "note": "Proved for ms * 10000 < 2^63, zero included (unlike on Linux, C68). Beyond that the due time becomes an absolute date or wraps to less than a millisecond."
  },
  {
   "property": "C117",
   "status": "proved",
   "theorems": [
    "Rpp.Props.C117_one_is",
    "Rpp.Props.C117_all_are",
    "Rpp.Props.C117_all_same",
    "Rpp.Props.C117_distinct",
    "Rpp.Props.C117_choose",
    "Rpp.Props.C117_index_of",
    "Rpp.Props.C117_inverse",
    "Rpp.Props.C117_list",
    "Rpp.Props.C117_list_functions"
   ],
   "note": ""
  },
  {
   "property": "C118",
   "status": "partial",
   "theorems": [
    "Rpp.Props.C118_specialised",
    "Rpp.Props.C118_decay_partial",
    "Rpp.Props.C118_refl_partial",
    "Rpp.Props.C118_false"
   ],
   "note": "Proved for all types for which a most specialised specialisation exists, and exactly characterised which these are. False in general: Decay of const volatile T and Refl of arrays of volatile elements are ambiguous and do not compile."
  },
  {
   "property": "C119",
   "status": "partial",
   "theorems": [
    "Rpp.Props.C119_enum_partial",
    "Rpp.Props.C119_record",
    "Rpp.Props.C119_false",
    "Rpp.Props.C119_reflectable"
   ],
   "note": "Proved for Enum. False for Record, which holds of every reflected enumeration as its requirements do not evaluate the comparison, and for Enum_Case and Record_Field, which hold of nothing."
  },
  {
   "property": "C120",
   "status": "proved",
   "theorems": [
    "Rpp.Props.C120_literal",
    "Rpp.Props.C120_contents"
   ],
   "note": ""
  },
  {
   "property": "C121",
   "status": "partial",
   "theorems": [
    "Rpp.Props.C121_aligned_partial",
    "Rpp.Props.C121_never_16",
    "Rpp.Props.C121_aligned_false"
   ],
   "note": "Proved for alignments up to 8 if all sizes requested are multiples of the alignment. False otherwise: alloc does not round, so one byte misaligns all later blocks of the chunk; and types aligned to 16 bytes are never aligned in chunks from malloc, because of the header of 24 bytes."
  },
  {
   "property": "C122",
   "status": "proved",
   "theorems": [
    "Rpp.Props.C122_make",
    "Rpp.Props.C122_get_put",
    "Rpp.Props.C122_invoke",
    "Rpp.Props.C122_clone",
    "Rpp.Props.C122_pair_clone"
   ],
   "note": "Element types obey the contract of their constructors, clone and moves."
  },
  {
   "property": "C123",
   "status": "proved",
   "theorems": [
    "Rpp.Props.C123_index",
    "Rpp.Props.C123_clone"
   ],
   "note": ""
  },
  {
   "property": "C124",
   "status": "partial",
   "theorems": [
    "Rpp.Props.C124_swap_partial",
    "Rpp.Props.C124_self_plain",
    "Rpp.Props.C124_shuffle_owning",
    "Rpp.Props.C124_shuffle_plain_partial"
   ],
   "note": "Proved for owning elements, and for different objects of plain data. False for plain data swapped with itself: memcpy with equal source and destination is undefined, and shuffle does it whenever it draws the element's own place."
  },
  {
   "property": "C125",
   "status": "partial",
   "theorems": [
    "Rpp.Props.C125_length",
    "Rpp.Props.C125_poll_partial",
    "Rpp.Props.C125_false",
    "Rpp.Props.C125_send"
   ],
   "note": "Proved: reported lengths are at most 1472, and a receiving loop sees all datagrams if they fit. False beyond: a datagram that does not fit, or an error, is reported as if nothing had arrived, after the packet was overwritten, and a loop stops there. send returns 2^64-1 on errors, reads behind the packet for longer lengths and wraps lengths at 32 bits."
  },
  {
   "property": "C126",
   "status": "partial",
   "theorems": [
    "Rpp.Props.C126_windows",
    "Rpp.Props.C126_posix_partial",
    "Rpp.Props.C126_false"
   ],
   "note": "Proved on Windows, where text that spells no address becomes 0.0.0.0 with a warning, and on POSIX for views with a zero byte behind them. False on POSIX for other views: the length of the view is never used, so a sub-view is read beyond its end, possibly beyond its block."
  },
  {
   "property": "C127",
   "status": "partial",
   "theorems": [
    "Rpp.Props.C127_reports_partial",
    "Rpp.Props.C127_log_restores_partial",
    "Rpp.Props.C127_depth",
    "Rpp.Props.C127_no_memory",
    "Rpp.Props.C127_replaced",
    "Rpp.Props.C127_false"
   ],
   "note": "Proved with at most 126 scopes open and room for the text. False otherwise: log opens a scope of its own, so with 127 scopes open the check on the number of scopes fails inside log, which logs, and so on without end (the stack overflows); the same when neither the text nor the message about missing memory fits."
  },
  {
   "property": "C128",
   "status": "partial",
   "theorems": [
    "Rpp.Props.C128_safe_partial",
    "Rpp.Props.C128_table",
    "Rpp.Props.C128_calls_end",
    "Rpp.Props.C128_misuse",
    "Rpp.Props.C128_exit_in_frame",
    "Rpp.Props.C128_false",
    "Rpp.Props.C128_callback_hangs"
   ],
   "note": "Proved for all interleavings in which no thread ends while iterate_timings runs (frames properly opened and closed): no race, no dangling access, and all calls end under any schedule that gives each thread its turns, with callbacks that do not use the profiler. False beyond: the destructor of a thread's profile drops the frames without their lock, and a callback that allocates or enters a scope waits for a lock its own thread holds."
  },
  {
   "property": "C129",
   "status": "partial",
   "theorems": [
    "Rpp.Props.C129_min_max",
    "Rpp.Props.C129_nan",
    "Rpp.Props.C129_clamp",
    "Rpp.Props.C129_list_partial",
    "Rpp.Props.C129_list_nan",
    "Rpp.Props.C129_list_false",
    "Rpp.Props.C129_box_partial",
    "Rpp.Props.C129_box_nan",
    "Rpp.Props.C129_box_false",
    "Rpp.Props.C129_simd",
    "Rpp.Props.C129_neg",
    "Rpp.Props.C129_sign"
   ],
   "note": "Proved for all numbers without NaN (list versions: with one number that is finite or on the right side); clamp is within its bounds for every number. False beyond, with the exact behaviour proved: with a NaN, min and max return their second argument, so lists and boxes forget all that came before; the least of infinity alone is the largest finite number; clamp of NaN is the lower bound for numbers and the upper one for vectors; SIMD ignores a single NaN and never negates +0; the sign of NaN is 1."
  },
  {
   "property": "C130",
   "status": "partial",
   "theorems": [
    "Rpp.Props.C130_slices_partial",
    "Rpp.Props.C130_wrap",
    "Rpp.Props.C130_false",
    "Rpp.Props.C130_refs_partial",
    "Rpp.Props.C130_refs_false"
   ],
   "note": "Refinement for all programs whose parts end at a 64-bit number, and for references never moved to themselves. False beyond: the check of sub adds its arguments with wrap-around, so that parts beyond the array are accepted; a reference moved to itself is null."
  },
  {
   "property": "C131",
   "status": "partial",
   "theorems": [
    "Rpp.Props.C131_posix_partial",
    "Rpp.Props.C131_false",
    "Rpp.Props.C131_windows_partial",
    "Rpp.Props.C131_windows_false"
   ],
   "note": "Proved for all views without zero byte (Windows: also exactly which names are too long). False for views with a zero byte: the file opened is the one named by what is before it."
  },
  {
   "property": "C132",
   "status": "partial",
   "theorems": [
    "Rpp.Props.C132_line_partial",
    "Rpp.Props.C132_truncated",
    "Rpp.Props.C132_long"
   ],
   "note": "Proved for all messages of less than 2^31 bytes without zero byte. False beyond: the message is cut at a zero byte; lengths are passed where printf takes an int, so that from 2^31 bytes on it reads up to a zero byte wherever that is."
  },
  {
   "property": "C133",
   "status": "partial",
   "theorems": [
    "Rpp.Props.C133_text_partial",
    "Rpp.Props.C133_fits",
    "Rpp.Props.C133_conversion",
    "Rpp.Props.C133_return",
    "Rpp.Props.C133_returns_iff",
    "Rpp.Props.C133_too_long",
    "Rpp.Props.C133_recursion"
   ],
   "note": "Proved for all texts of at most 255 units and 256 bytes, and exactly when the call returns. False: the carriage return stays; if the text of error 122 does not fit into the buffer, a call that needs it recurses without end."
  },
  {
   "property": "C134",
   "status": "partial",
   "theorems": [
    "Rpp.Props.C134_finalize_partial",
    "Rpp.Props.C134_register",
    "Rpp.Props.C134_callback"
   ],
   "note": "Proved if no finalizer registers another and no log callback allocates. False otherwise: the lock is held while the finalizer or the callback runs, which waits for it forever."
  },
  {
   "property": "C135",
   "status": "partial",
   "theorems": [
    "Rpp.Props.C135_choose_partial",
    "Rpp.Props.C135_linux_false",
    "Rpp.Props.C135_macos_partial",
    "Rpp.Props.C135_windows",
    "Rpp.Props.C135_affinity_partial",
    "Rpp.Props.C135_affinity_windows",
    "Rpp.Props.C135_pool_partial"
   ],
   "note": "Proved for bounds at least 4 apart, for Windows, and exactly when binding and making a pool succeed. False: on Linux the bounds are those of the default policy, so that all levels are the same and real-time threads end the program; a pool ends the program on machines with more than 65 cores or with cores below the last that are not allowed."
  },
  {
   "property": "C136",
   "status": "partial",
   "theorems": [
    "Rpp.Props.C136_strings_partial",
    "Rpp.Props.C136_freed_partial",
    "Rpp.Props.C136_overlap",
    "Rpp.Props.C136_false"
   ],
   "note": "Refinement for all programs whose writes do not overlap their source. False beyond: write copies with memcpy, which is undefined for the bytes of a view of the same string that overlap, and for x.write(0, x)."
  },
  {
   "property": "C137",
   "status": "partial",
   "theorems": [
    "Rpp.Props.C137_vec_partial",
    "Rpp.Props.C137_vec_false",
    "Rpp.Props.C137_queue_partial",
    "Rpp.Props.C137_queue_false",
    "Rpp.Props.C137_heap_partial",
    "Rpp.Props.C137_heap_false",
    "Rpp.Props.C137_map_partial",
    "Rpp.Props.C137_map_false",
    "Rpp.Props.C137_erase"
   ],
   "note": "True exactly when the container is not full. For every full container the argument is read after grow has freed the buffer it refers to. Erasing through the own key is fine."
  },
  {
   "property": "C138",
   "status": "partial",
   "theorems": [
    "Rpp.Props.C138_coroutines_partial",
    "Rpp.Props.C138_memory_partial",
    "Rpp.Props.C138_other_thread_false",
    "Rpp.Props.C138_other_region_false",
    "Rpp.Props.C138_same_code_false"
   ],
   "note": "Proved if no coroutine suspends inside a region. False otherwise: the scopes are per thread, so that the coroutine fails a check on another thread or after another coroutine opened a region; if both run the same code the brands agree, and the memory of one is given back by the other without any check failing."
  },
  {
   "property": "C139",
   "status": "partial",
   "theorems": [
    "Rpp.Props.C139_races_partial",
    "Rpp.Props.C139_false",
    "Rpp.Props.C139_calls_end"
   ],
   "note": "Proved for all interleavings except for one access: enqueue looks whether a queue is empty without its mutex, which is a data race with every push and pop of that queue. All other data is guarded, and all calls end under any schedule that gives each thread its turns."
  },
  {
   "property": "C140",
   "status": "partial",
   "theorems": [
    "Rpp.Props.C140_erase_partial",
    "Rpp.Props.C140_collect",
    "Rpp.Props.C140_missed_false",
    "Rpp.Props.C140_twice_false",
    "Rpp.Props.C140_insert_false"
   ],
   "note": "Proved: the loop ends, visits only entries of the map and removes exactly what its body erases; and erasing after a first loop has collected the keys removes exactly those entries. False: when an entry is erased the next one moves into its slot and is missed, and an entry at the beginning of the table may move to its end and be visited twice. A body that inserts can make the loop leave the table."
  },
  {
   "property": "C141",
   "status": "partial",
   "theorems": [
    "Rpp.Props.C141_selected",
    "Rpp.Props.C141_exists",
    "Rpp.Props.C141_same",
    "Rpp.Props.C141_distinct_partial",
    "Rpp.Props.C141_spelling_partial",
    "Rpp.Props.C141_false"
   ],
   "note": "Which types have a name and which share one is determined exactly. False: a const pointer is named like a pointer to const, allocators are left out, the dimensions of arrays of arrays are in the wrong order, pointers to arrays are misspelt, arrays of const do not compile. Proved without these."
  },
  {
   "property": "C142",
   "status": "partial",
   "theorems": [
    "Rpp.Props.C142_lanes",
    "Rpp.Props.C142_inverse",
    "Rpp.Props.C142_inverse_exact",
    "Rpp.Props.C142_dp_partial",
    "Rpp.Props.C142_min_partial",
    "Rpp.Props.C142_false"
   ],
   "note": "The lane-wise functions, the comparison and the inverse are the same to the last bit for any arithmetic. False of scalar products, which are summed in another order, and of min and max with NaN."
  },
  {
   "property": "C143",
   "status": "partial",
   "theorems": [
    "Rpp.Props.C143_lock_partial",
    "Rpp.Props.C143_ended_partial",
    "Rpp.Props.C143_lost",
    "Rpp.Props.C143_false"
   ],
   "note": "Holds if no Lock that holds a mutex is assigned to and each Lock ends on the thread that made it. False otherwise: an assignment to a Lock that holds a mutex, from another or from itself, forgets that mutex, which then stays locked for ever."
  },
  {
   "property": "C144",
   "status": "partial",
   "theorems": [
    "Rpp.Props.C144_component",
    "Rpp.Props.C144_integers",
    "Rpp.Props.C144_collision",
    "Rpp.Props.C144_floats_partial",
    "Rpp.Props.C144_false"
   ],
   "note": "One changed component changes the hash; two can cancel, in exactly one way for each first component. False for vectors that compare equal with a zero of another sign: their hashes differ."
  },
  {
   "property": "C145",
   "status": "partial",
   "theorems": [
    "Rpp.Props.C145_counts_partial",
    "Rpp.Props.C145_tickets_partial",
    "Rpp.Props.C145_last_partial",
    "Rpp.Props.C145_one_wins",
    "Rpp.Props.C145_exchange",
    "Rpp.Props.C145_loop_partial",
    "Rpp.Props.C145_false"
   ],
   "note": "Holds as long as the count fits into 64 bits. At the ends of the range the result is undefined on POSIX, where it is computed by a signed addition, and wraps on Windows."
  },
  {
   "property": "C146",
   "status": "partial",
   "theorems": [
    "Rpp.Props.C146_integer",
    "Rpp.Props.C146_range",
    "Rpp.Props.C146_unit",
    "Rpp.Props.C146_streams",
    "Rpp.Props.C146_integers",
    "Rpp.Props.C146_distinct",
    "Rpp.Props.C146_ranges",
    "Rpp.Props.C146_seed",
    "Rpp.Props.C146_coin_false"
   ],
   "note": "All holds but the last: coin_flip is true in every state for every p from 1e-16 on, because unit scales by powers of ten. range is covered for unsigned types (signed: C10)."
  },
  {
   "property": "C147",
   "status": "partial",
   "theorems": [
    "Rpp.Props.C147_accuracy_partial",
    "Rpp.Props.C147_double_false",
    "Rpp.Props.C147_back_false"
   ],
   "note": "Holds with the accuracy of f32 (2^-23). The factors are computed in f32 for f64 too: there every result is wrong from the ninth (radians) or eighth (degrees) digit on, and every angle is smaller after converting there and back."
  },
  {
   "property": "C148",
   "status": "partial",
   "theorems": [
    "Rpp.Props.C148_start",
    "Rpp.Props.C148_moves",
    "Rpp.Props.C148_end_partial",
    "Rpp.Props.C148_error",
    "Rpp.Props.C148_vector",
    "Rpp.Props.C148_false"
   ],
   "note": "The start is exact and it always moves towards the end. The end is reached and nothing is beyond it if the difference of the ends is exact, so if they are within a factor of two; otherwise it is false: from 10^8 to 1 it ends at 0. The error is bounded for all ends."
  },
  {
   "property": "C149",
   "status": "partial",
   "theorems": [
    "Rpp.Props.C149_range",
    "Rpp.Props.C149_edges_partial",
    "Rpp.Props.C149_false"
   ],
   "note": "Never below 0 or above 1, and exact outside the edges, also for equal and for exchanged edges. False: between neighbouring numbers of f32 it falls."
  },
  {
   "property": "C150",
   "status": "partial",
   "theorems": [
    "Rpp.Props.C150_part_partial",
    "Rpp.Props.C150_false",
    "Rpp.Props.C150_undefined"
   ],
   "note": "For numbers from 0 to below 2^63 it holds and the difference is exact. For negative numbers that are no integers the result is negative; from 2^63 on the conversion to i64 is undefined."
  },
  {
   "property": "C151",
   "status": "partial",
   "theorems": [
    "Rpp.Props.C151_dot_partial",
    "Rpp.Props.C151_norm2",
    "Rpp.Props.C151_false"
   ],
   "note": "Holds for norm2. For dot the bound is relative to the sum of the magnitudes of the products; relative to the result it is false, as products cancel: (4097, 1) times (4097, -16785408) is 1 and gives 0."
  },
  {
   "property": "C152",
   "status": "partial",
   "theorems": [
    "Rpp.Props.C152_calls_end_partial",
    "Rpp.Props.C152_forever",
    "Rpp.Props.C152_false"
   ],
   "note": "Holds if callbacks of the log take only mutexes under which nothing else is done and callbacks of iterate_timings do not allocate. False otherwise: callbacks run with the mutex of the log, or of the thread that is shown, held."
  },
  {
   "property": "C153",
   "status": "partial",
   "theorems": [
    "Rpp.Props.C153_unit_partial",
    "Rpp.Props.C153_length",
    "Rpp.Props.C153_long",
    "Rpp.Props.C153_short"
   ],
   "note": "Holds, with explicit bounds, for components whose squares stay in the range of the type. False otherwise: in f32 a vector with a component from 2^64 on becomes zero, and one with all components up to 2^-75 infinite or not a number, as the square of the norm overflows or underflows."
  },
  {
   "property": "C154",
   "status": "partial",
   "theorems": [
    "Rpp.Props.C154_vec_partial",
    "Rpp.Props.C154_queue",
    "Rpp.Props.C154_heap",
    "Rpp.Props.C154_map",
    "Rpp.Props.C154_false"
   ],
   "note": "Holds for push and insert of Vec, Stack, Queue, Heap and Map, with removals in between. False for Vec::extend and resize, which reserve exactly what they need: extending by one element n times moves n(n-1)/2 elements."
  },
  {
   "property": "C155",
   "status": "partial",
   "theorems": [
    "Rpp.Props.C155_held_partial",
    "Rpp.Props.C155_freed_partial",
    "Rpp.Props.C155_leak",
    "Rpp.Props.C155_false",
    "Rpp.Props.C155_depth",
    "Rpp.Props.C155_deep"
   ],
   "note": "Holds as long as no value leads back to itself. A value that is part of a cycle no variable leads to is never destroyed, whatever the program does. Destroying n values that hold each other takes n nested calls, so that every stack is overflowed by some list."
  },
  {
   "property": "C156",
   "status": "proved",
   "theorems": [
    "Rpp.Props.C156_same",
    "Rpp.Props.C156_push",
    "Rpp.Props.C156_pop",
    "Rpp.Props.C156_push_exact",
    "Rpp.Props.C156_pop_exact",
    "Rpp.Props.C156_programs",
    "Rpp.Props.C156_sort"
   ],
   "note": "Comparisons and swaps are counted; growing is C154. The bounds do not need operator< to be an order."
  },
  {
   "property": "C157",
   "status": "proved",
   "theorems": [
    "Rpp.Props.C157_values",
    "Rpp.Props.C157_safe",
    "Rpp.Props.C157_owned",
    "Rpp.Props.C157_freed",
    "Rpp.Props.C157_inside"
   ],
   "note": "Precondition: an object is not put into something that it is a part of (push, emplace and assignment of an Opt from its own contents); C157_inside shows that the results are then wrong. Assignment of an object to itself is included, and leaves it empty."
  },
  {
   "property": "C158",
   "status": "proved",
   "theorems": [
    "Rpp.Props.C158_owned",
    "Rpp.Props.C158_closed",
    "Rpp.Props.C158_others",
    "Rpp.Props.C158_twice"
   ],
   "note": "Precondition: of_sys is given a descriptor that its caller holds; C158_twice shows what happens otherwise, on each system."
  },
  {
   "property": "C159",
   "status": "partial",
   "theorems": [
    "Rpp.Props.C159_room_partial",
    "Rpp.Props.C159_pushes",
    "Rpp.Props.C159_ctor_exact",
    "Rpp.Props.C159_reserve_exact",
    "Rpp.Props.C159_extend_wraps",
    "Rpp.Props.C159_false"
   ],
   "note": "The code is wrong for requests of 2^64 bytes or more: C159_room_partial is the property for all programs that stay below that, C159_ctor_exact and C159_reserve_exact say for every larger request what happens, C159_extend_wraps that a vector extended past 2^64 elements becomes shorter, and C159_false is a concrete program writing outside its block. Map, String and Slab arithmetic is not in this model."
  },
  {
   "property": "C160",
   "status": "partial",
   "theorems": [
    "Rpp.Props.C160_elements_exact",
    "Rpp.Props.C160_rc",
    "Rpp.Props.C160_variant",
    "Rpp.Props.C160_function",
    "Rpp.Props.C160_pool_exact",
    "Rpp.Props.C160_pool_partial",
    "Rpp.Props.C160_false"
   ],
   "note": "malloc answers with multiples of 16, so arrays, boxes and counted values are right exactly for alignments up to 16 (C160_elements_exact). Mpool compiles exactly for sizes from 16 up and powers of two (C160_pool_exact): alignas is given min(sizeof(T), 16). Variant and Function are right for all types. For memory of regions see C121."
  },
  {
   "property": "C161",
   "status": "partial",
   "theorems": [
    "Rpp.Props.C161_number",
    "Rpp.Props.C161_nearest",
    "Rpp.Props.C161_shown",
    "Rpp.Props.C161_close",
    "Rpp.Props.C161_exact_partial",
    "Rpp.Props.C161_dyadic_partial",
    "Rpp.Props.C161_lost",
    "Rpp.Props.C161_special",
    "Rpp.Props.C161_any",
    "Rpp.Props.C161_none",
    "Rpp.Props.C161_false"
   ],
   "note": "False of the code, as %f prints six decimals: exact from 16 up and for multiples of 1/64, within a millionth otherwise, and zero for everything up to half a millionth. snprintf and strtof are taken to round correctly. The sign of zero is not modelled."
  },
  {
   "property": "C162",
   "status": "proved",
   "theorems": [
    "Rpp.Props.C162_int",
    "Rpp.Props.C162_float",
    "Rpp.Props.C162_normal",
    "Rpp.Props.C162_denormal",
    "Rpp.Props.C162_epsilon",
    "Rpp.Props.C162_epsilon_exact",
    "Rpp.Props.C162_comment",
    "Rpp.Props.C162_sizes"
   ],
   "note": "C162_comment: the comment in the source describes epsilon wrongly; adding to 1 changes it from half of epsilon on (C162_epsilon_exact)."
  },
  {
   "property": "C163",
   "status": "partial",
   "theorems": [
    "Rpp.Props.C163_step_partial",
    "Rpp.Props.C163_unique",
    "Rpp.Props.C163_undefined",
    "Rpp.Props.C163_programs_partial",
    "Rpp.Props.C163_false"
   ],
   "note": "False for plain assignment between views that overlap in part, which copies overlapping memory. All other operations are right for all operands; accesses by number must be within the view (C163_undefined: everything else is undefined)."
  },
  {
   "property": "C164",
   "status": "proved",
   "theorems": [
    "Rpp.Props.C164_counter",
    "Rpp.Props.C164_wraps",
    "Rpp.Props.C164_accuracy",
    "Rpp.Props.C164_order",
    "Rpp.Props.C164_exact"
   ],
   "note": "The relative error is at most 2^-24 + 2^-50 for every frequency; whole milliseconds are exact up to 2^24."
  },
  {
   "property": "C165",
   "status": "partial",
   "theorems": [
    "Rpp.Props.C165_lookup_partial",
    "Rpp.Props.C165_exact",
    "Rpp.Props.C165_longest",
    "Rpp.Props.C165_insert_partial",
    "Rpp.Props.C165_erase_partial",
    "Rpp.Props.C165_erase_capacity",
    "Rpp.Props.C165_erase_false"
   ],
   "note": "False for erasing a key that is not there: an empty slot does not end the search of try_erase, and with one entry in 2^e slots it goes over all 2^e of them (C165_erase_false). Everything else is proved."
  },
  {
   "property": "C166",
   "status": "proved",
   "theorems": [
    "Rpp.Props.C166_matrix",
    "Rpp.Props.C166_points",
    "Rpp.Props.C166_compose",
    "Rpp.Props.C166_cross",
    "Rpp.Props.C166_cross_self",
    "Rpp.Props.C166_cross_fused",
    "Rpp.Props.C166_cancel",
    "Rpp.Props.C166_quat",
    "Rpp.Props.C166_rotate",
    "Rpp.Props.C166_exact",
    "Rpp.Props.C166_det"
   ],
   "note": "Exponents without limits. Relative to the result there is no bound (C166_cancel). Where the compiler fuses products and differences the bound of cross holds too, but cross of a vector with itself need not be zero (C166_cross_fused)."
  },
  {
   "property": "C167",
   "status": "proved",
   "theorems": [
    "Rpp.Props.C167_class",
    "Rpp.Props.C167_twice",
    "Rpp.Props.C167_turns",
    "Rpp.Props.C167_not_best"
   ],
   "note": "Requests whose size and alignment overflow and 256 or more buckets are excluded as in C30, where they break the allocator. Within a class the gap released last is taken, not the best (C167_not_best)."
  },
  {
   "property": "C168",
   "status": "partial",
   "theorems": [
    "Rpp.Props.C168_distinct_partial",
    "Rpp.Props.C168_prefix_partial",
    "Rpp.Props.C168_false"
   ],
   "note": "Proved for types built from integers, booleans, characters, enumerations, sequences, maps, Opt, Box, Ref, Rc, Arc, pairs, tuples, records, variants of Named types and integer vectors, with sequences of single characters left out and enumerations holding one of their enumerators. False of strings inside of other values, which are not quoted, and of enumerations with an unnamed value. Floating point numbers are written with six decimals (C161)."
  },
  {
   "property": "C169",
   "status": "partial",
   "theorems": [
    "Rpp.Props.C169_center_partial",
    "Rpp.Props.C169_center_false",
    "Rpp.Props.C169_area",
    "Rpp.Props.C169_transform_partial",
    "Rpp.Props.C169_order",
    "Rpp.Props.C169_transform_false",
    "Rpp.Props.C169_project"
   ],
   "note": "False for transform: it adds in another order than operator*, and the unit cube moved by 2^24 and sheared does not contain the image of a corner. Proved: the images are in the box made larger by four (exact images) or seven (rounded ones) roundings of the terms, and in the box itself when added in its order. The center is in the box unless the sum overflows. surface_area and project are right. Exponents have no limits except in C169_center_false."
  },
  {
   "property": "C170",
   "status": "partial",
   "theorems": [
    "Rpp.Props.C170_before",
    "Rpp.Props.C170_pack",
    "Rpp.Props.C170_follows_partial",
    "Rpp.Props.C170_poll_partial",
    "Rpp.Props.C170_later",
    "Rpp.Props.C170_same_tick",
    "Rpp.Props.C170_gone",
    "Rpp.Props.C170_empty",
    "Rpp.Props.C170_false"
   ],
   "note": "False: a file replaced by an older one is missed, a change within 100 ns is missed, and the watcher holds a view of the path: when the text is overwritten it compares with another file, when it is given back the poll is undefined. Proved: before is the order of the times, and while the text lives each poll returns true exactly if the file named by it is newer than that of the last successful look."
  },
  {
   "property": "C171",
   "status": "partial",
   "theorems": [
    "Rpp.Props.C171_ids_partial",
    "Rpp.Props.C171_this",
    "Rpp.Props.C171_mac",
    "Rpp.Props.C171_self",
    "Rpp.Props.C171_live_partial",
    "Rpp.Props.C171_stuck_false",
    "Rpp.Props.C171_ids_false",
    "Rpp.Props.C171_reuse"
   ],
   "note": "False: on macOS Thread::id() is the number of the kernel and this_id() the address of the pthread, and two threads that hold each other's Thread wait for each other without end. Proved: on Linux and Windows the ids agree and differ between threads the system knows, the check in sys_join fires exactly for a thread that joins itself (all platforms), and threads that join in the order of some rank are never stuck."
  },
  {
   "property": "C172",
   "status": "partial",
   "theorems": [
    "Rpp.Props.C172_text",
    "Rpp.Props.C172_console",
    "Rpp.Props.C172_thread_order",
    "Rpp.Props.C172_messages",
    "Rpp.Props.C172_file_partial",
    "Rpp.Props.C172_defined",
    "Rpp.Props.C172_file_false",
    "Rpp.Props.C172_order_false",
    "Rpp.Props.C172_text_false"
   ],
   "note": "False: the clock is read before the lock is taken, so lines of different threads can be out of order; the time is a view of a buffer of the thread, and a callback that calls sys_time_string changes the time in the file; a time whose year does not fit is undefined. Proved for all schedules: the console has each thread's calls in order with their times, the file has the same messages in the same order, and the same times if callbacks show only the time they were given."
  },
  {
   "property": "C173",
   "status": "partial",
   "theorems": [
    "Rpp.Props.C173_promise_partial",
    "Rpp.Props.C173_promise_off",
    "Rpp.Props.C173_inverse",
    "Rpp.Props.C173_eq",
    "Rpp.Props.C173_resume_partial",
    "Rpp.Props.C173_handover_partial",
    "Rpp.Props.C173_ended_first_partial",
    "Rpp.Props.C173_abandon_partial",
    "Rpp.Props.C173_false"
   ],
   "note": "False for promises of alignment above 16: the header passes alignment 0 to __builtin_coro_promise, so from_promise and promise are off by the difference to 16; a Task with such a result resumes where no frame begins, and the end of the coroutine looks for the state in the wrong place. Proved for all alignments up to 16. That the distance is the alignment rounded up from two pointers is taken from the compilers."
  },
  {
   "property": "C174",
   "status": "partial",
   "theorems": [
    "Rpp.Props.C174_vec_push",
    "Rpp.Props.C174_vec_partial",
    "Rpp.Props.C174_queue_partial",
    "Rpp.Props.C174_queue_push",
    "Rpp.Props.C174_vec_false",
    "Rpp.Props.C174_queue_false"
   ],
   "note": "False: a loop over a vector that adds elements reads storage given back exactly if what is added before its last turn does not fit into the capacity; removing makes both visit places without an element, and a loop over a queue then skips elements. Proved: the exact condition for vectors, that adding to a queue in a loop is always fine, and that both otherwise behave as the loop over a list."
  },
  {
   "property": "C175",
   "status": "proved",
   "theorems": [
    "Rpp.Props.C175_entries",
    "Rpp.Props.C175_terms",
    "Rpp.Props.C175_exact",
    "Rpp.Props.C175_both",
    "Rpp.Props.C175_apply",
    "Rpp.Props.C175_length"
   ],
   "note": "Exponents without limits, as in C166."
  },
  {
   "property": "C176",
   "status": "partial",
   "theorems": [
    "Rpp.Props.C176_text_partial",
    "Rpp.Props.C176_return",
    "Rpp.Props.C176_next",
    "Rpp.Props.C176_room",
    "Rpp.Props.C176_false"
   ],
   "note": "False: one byte of the two of the end of line is dropped, so the text ends in a carriage return; the bytes are in the code page of the user and not UTF-8; a text longer than 255 bytes is replaced by the number; and the next call in the thread overwrites the text that the view shows. Proved: the call always returns, and what the view reads as in each case."
  },
  {
   "property": "C177",
   "status": "partial",
   "theorems": [
    "Rpp.Props.C177_linux",
    "Rpp.Props.C177_mac_partial",
    "Rpp.Props.C177_mac_dies",
    "Rpp.Props.C177_room",
    "Rpp.Props.C177_next_false"
   ],
   "note": "False: on macOS an unknown number ends the process by the check on strerror_r, before the message the text was for; and the next call in the thread overwrites the text on macOS, and on Linux if the number is unknown. Proved: what the view reads as on Linux for every error, on macOS for every error with a text that fits, and exactly when the process ends."
  },
  {
   "property": "C178",
   "status": "partial",
   "theorems": [
    "Rpp.Props.C178_choices",
    "Rpp.Props.C178_once",
    "Rpp.Props.C178_front_partial",
    "Rpp.Props.C178_missing_false"
   ],
   "note": "False: of more than twenty different elements there are more orders than states, so some order never comes (C178_missing_false). Proved: the result is what the draws choose, every order belongs to exactly one list of choices, and every element comes to the front for the same number of states up to the remainder. Not proved: how many states give each order of three to twenty elements, as the later draws are functions of the first."
  },
  {
   "property": "C179",
   "status": "proved",
   "theorems": [
    "Rpp.Props.C179_clip",
    "Rpp.Props.C179_screen",
    "Rpp.Props.C179_depth",
    "Rpp.Props.C179_order",
    "Rpp.Props.C179_close"
   ],
   "note": "The tangent is taken as computed. Exponents have no limits in the model (no overflow or subnormal numbers). C179_close: two distances next to each other can have the same depth."
  },
  {
   "property": "C180",
   "status": "proved",
   "theorems": [
    "Rpp.Props.C180_drift",
    "Rpp.Props.C180_thousand"
   ],
   "note": "Exponents have no limits in the model (no overflow or subnormal numbers)."
  },
  {
   "property": "C181",
   "status": "partial",
   "theorems": [
    "Rpp.Props.C181_vec",
    "Rpp.Props.C181_queue",
    "Rpp.Props.C181_heap",
    "Rpp.Props.C181_map_partial",
    "Rpp.Props.C181_map_false"
   ],
   "note": "True of Vec, Queue and Heap. False of Map: it grows at three quarters of the reserved capacity, and overwriting an entry counts as adding one."
  },
  {
   "property": "C182",
   "status": "partial",
   "theorems": [
    "Rpp.Props.C182_share_partial",
    "Rpp.Props.C182_merge_partial",
    "Rpp.Props.C182_shift_false",
    "Rpp.Props.C182_seed_false"
   ],
   "note": "False: a stream whose seed was drawn from another stream repeats it, and for any two threads and every time of one there is a time of the other that gives the same seed. Proved: exactly when streams meet, and what follows."
  },
  {
   "property": "C183",
   "status": "partial",
   "theorems": [
    "Rpp.Props.C183_entries_partial",
    "Rpp.Props.C183_lookups_partial",
    "Rpp.Props.C183_order_false"
   ],
   "note": "Proved up to the order: the same lookups if and only if the same entries are listed. False of the order of iteration and of length()."
  }
 ]
}
