# Verification of rpp: design and results

Code under study: TheNumbat/rpp as pinned in `/repo` (read as text; never built or run).

* `properties.jsonl` – what is claimed, in terms of the API.
* `lean/` – the Lean 4 project with model, specifications and proofs.
* `MANIFEST.json` – which theorems support which claim, and how far.
* `seeded/LOG.jsonl` – wrong programs the theorems were tested against.

## Layout of the Lean project

* `Verif/Model/*.lean` – transcriptions of the C++ code. Every definition cites file and lines and
  says where it simplifies.
* `Verif/Spec/*.lean` – small independent specifications (lists, finite maps, byte strings, multisets
  of grants ...). They say what the user expects and do not use the helper functions of the model;
  where a specification speaks about a model state (handle counts, live blocks), it does so through
  the plain fields of the state.
* `Verif/Proof/*.lean` – helper lemmas and invariants.
* `Verif/Props/*.lean` – the property theorems, named `Cnn_...`, each with `example`s showing that
  its hypotheses are met by concrete non-trivial states.

A property that is false of the code has a theorem `Cnn_..._false` (or a named fact such as
`C19_erase_first_leaks`) that exhibits a concrete run, and a theorem with suffix `_partial` that proves
what is left, with the excluded inputs as explicit hypotheses. The status is then `partial`: the code,
not the proof, is what falls short. The few places where a proof is narrower than the
code would allow are named in the notes.

## Modelling conventions

* **Outcomes.** Code that can fail is modelled in `Res α = Except Err α` with
  `Err = die | oom | ub | leak | hang`. `die` is a failed `assert`/`die` (active in all builds, `log.h`),
  `oom` the failed assertion in `sys_alloc`, `ub` undefined behaviour (out-of-bounds or null or dangling
  access, reading or destroying dead storage, `x % 0`, oversized shift, signed overflow), `leak` an
  owning object overwritten or its storage released while alive, `hang` a loop that does not end.
* **Loops** are structural recursion or take fuel; running out of fuel is the outcome `hang`, and the
  theorems show that it is not reached (or, for the hangs found, that it is reached for every fuel).
* **Storage.** `Model/Mem`: a heap of numbered blocks of cells `none` (raw) or `some v` (live).
  Constructing over a live owning cell is `leak`; destroying or reading a raw cell is `ub`; freeing a
  block with a live owning cell is `leak`. "Owned exactly once" therefore follows from "the outcome
  is ok" together with "no block is left at the end".
* **Moves.** A moved-from element of a container buffer is raw storage (rpp never destroys it).
  Where the code does destroy moved-from objects (Opt, Variant), they are live objects with an
  empty value.
* **Machine words.** u64 arithmetic wraps (`Model/Word`: `wadd`, `wsub`, `wmul`, or `BitVec 64`) wherever
  it can matter; otherwise `Nat` with stated bounds.
* **Concurrency.** Threads are programs over atomic steps; theorems quantify over every list of events
  (`Model/Sched`), so over every interleaving and any number of threads. An event that is not enabled
  is a stutter step. Atomics are sequentially consistent, as the `__sync`/`__atomic` builtins with
  default order in `thread_pos.cpp` are.
* **Floating point.** Vector algebra is over an arbitrary (ordered) field with exact square root, sine
  and cosine given as arguments with their laws. Rounding is not modelled, except for `RNG::unit`,
  where rationals with a relative error stand for floats.
* **External calls** (kernel, libc) are parameters or event choices with the documented set of answers.

## Properties: what is modelled, how it is proved, what came out

Theorem names are those of `MANIFEST.json` without the prefix `Rpp.Props.`. *Model* names files under `lean/Verif/Model`.

### Integer arithmetic, hashing and random numbers

* **C01 next_pow2 is the least power of two not below its argument** – proved. *Model* Math. Words of any width `w`; arithmetic on the bit-smearing and ctlz code. *Result:* Any word width; result 0 above 2^(w-1) also proved. *Theorems:* `C01_next_pow2`, `C01_next_pow2_overflow`.
* **C02 log2, ctlz and prev_pow2 agree with the mathematical floor logarithm** – proved. *Model* Math. The binary search of `ctlz`/`log2` against `2^r ≤ x < 2^(r+1)`. *Theorems:* `C02_log2`, `C02_zero`.
* **C03 align rounds up to the next multiple** – proved. *Model* Math. Modular arithmetic; the least multiple is stated as a minimum, with the exact no-overflow condition. *Theorems:* `C03_align`, `C03_align_down`, `C03_roundUp_exists`.
* **C04 Integer pow computes the power** – partial. *Model* Math. Invariant of square-and-multiply; each integer type with its promotion and overflow rules. *Result:* False as stated: for i32/i64 the last, unneeded, squaring of the base can overflow although the result is representable; u16 overflows through int promotion; a negative exponent loops forever. Proved for u8,u32,u64,i8,i16 and exactly characterised for i32,i64 and, for representable powers, u16. *Theorems:* `C04_pow_partial`, `C04_pow_signed_partial`, `C04_pow_u16_partial`, `C04_pow_u16_mod`, `C04_pow_i32_false`, `C04_pow_u16_false`, `C04_pow_negative_hangs`.
* **C75 clamp, min and max select the right argument** – proved. *Model* Math. Any linear order; the variadic functions by induction on the list. *Theorems:* `C75_clamp_min_max`, `C75_min_list`.
* **C76 abs is the absolute value except at the minimum** – proved. *Model* Math. Integers with `INT_MIN` as overflow. *Theorems:* `C76_abs`.
* **C05 Integer hashing never collides** – proved. *Model* Hash. Every step of squirrel5 is shown invertible on `BitVec 64`; injectivity for all pairs of words. *Theorems:* `C05_squirrel5_bijective`, `C05_integer_hash_injective`.
* **C06 Stored hashes never equal the reserved empty marker** – proved. *Model* Hash. `h ||| 1` is not zero; literals by recursion over their characters. *Theorems:* `C06_hash_nonzero`, `C06_hash_literal`.
* **C07 Equal keys have equal hashes** – partial. *Model* Hash, Str. Byte strings; `operator==` is the `strncmp` model. *Result:* False as stated: operator== uses strncmp and stops at an embedded zero byte, the hash does not. Proved when one string has no zero byte. *Theorems:* `C07_equal_strings_hash_partial`, `C07_same_bytes_same_hash`, `C07_false`, `C07_float_zero_false`.
* **C08 Combining hashes is insensitive to argument order and deterministic** – proved. *Model* Hash. Algebra on `BitVec 64`; collisions characterised exactly. *Theorems:* `C08_order_insensitive`, `C08_collision_iff`.
* **C09 shuffle permutes** – partial. *Model* Hash. Shuffle with an arbitrary generator state; induction over the loop; `List.Perm`. *Result:* False for the empty vector (length()-1 wraps, then % 0). Proved for all non-empty vectors and all generator states. *Theorems:* `C09_shuffle_partial`, `C09_empty_false`.
* **C10 range stays in range** – partial. *Model* Hash. `%` on unsigned words of any width; the signed overload with overflow as `ub`. *Result:* False for signed types (negative remainder; max-min overflow). Proved for every unsigned width. For signed types the number of states that leave the interval is given exactly, so that only intervals of one value are safe; longer than the type overflows always. *Theorems:* `C10_range_unsigned_partial`, `C10_range_signed_partial`, `C10_signed_exact`, `C10_signed_only`, `C10_signed_wide`, `C10_signed_false`.
* **C11 unit covers the unit interval** – partial. *Model* Hash. Rationals with the relative error of one rounding. *Result:* False: the factors are 1e-24 and 1e-53 instead of 2^-24 and 2^-53, so every draw is below 1e-16. Proved: in [0,1). Floats are represented by rationals with a relative rounding error. *Theorems:* `C11_unit_partial`, `C11_false`.
* **C98 One changed byte changes the hash of a string** – proved. *Model* Hash. Each step of the loop is injective in the hash so far and in the byte, because squirrel5 is a bijection. *Result:* Found missing by a seeded bug that folds the case of characters before hashing and broke no earlier theorem. *Theorems:* `C98_one_byte_changes_hash`, `C98_same_suffix`.
* **C99 popcount counts the one bits** – proved. *Model* Math. Induction on the width against the cardinality of the set of positions of one bits. *Result:* The compiler builtin is modelled by a loop over the bits; the theorem relates the loop to the set of one bits. Found missing by a seeded bug. *Theorems:* `C99_popcount_counts`, `C99_popcount_one`.
* **C117 Operations on packs of types and type lists** – proved. *Model* Meta. Induction over packs. *Theorems:* `C117_one_is`, `C117_all_are`, `C117_all_same`, `C117_distinct`, `C117_choose`, `C117_index_of`, `C117_inverse`, `C117_list`, `C117_list_functions`.
* **C118 Decay and Refl are defined for all types** – partial. *Model* Meta. Model of partial specialisation with its partial ordering (shown to be the semantic one); induction on the size of the type. *Result:* Proved for all types for which a most specialised specialisation exists, and exactly characterised which these are. False in general: Decay of const volatile T and Refl of arrays of volatile elements are ambiguous and do not compile. *Theorems:* `C118_specialised`, `C118_decay_partial`, `C118_refl_partial`, `C118_false`.
* **C119 Enum and Record tell enumerations from records** – partial. *Model* Meta. Case analysis over the specialisations. *Result:* Proved for Enum. False for Record, which holds of every reflected enumeration as its requirements do not evaluate the comparison, and for Enum_Case and Record_Field, which hold of nothing. *Theorems:* `C119_enum_partial`, `C119_record`, `C119_false`, `C119_reflectable`.
* **C120 Literals** – proved. *Model* Meta. Induction over the comparison. *Theorems:* `C120_literal`, `C120_contents`.
* **C144 Hashes of vectors** – partial. *Model* VectHash. A vector is a list of bit patterns; equality of floating point numbers on bit patterns. *Result:* One changed component changes the hash; two can cancel, in exactly one way for each first component. False for vectors that compare equal with a zero of another sign: their hashes differ. *Theorems:* `C144_component`, `C144_integers`, `C144_collision`, `C144_floats_partial`, `C144_false`.
* **C146 Random streams are uniform and do not repeat early** – partial. *Model* Rng. The number of states is a cardinality; the generator is a bijection of the states, so that counting states is counting residues. *Result:* All holds but the last: coin_flip is true in every state for every p from 1e-16 on, because unit scales by powers of ten. range is covered for unsigned types (signed: C10). *Theorems:* `C146_integer`, `C146_range`, `C146_unit`, `C146_streams`, `C146_integers`, `C146_distinct`, `C146_ranges`, `C146_seed`, `C146_coin_false`.
* **C162 Limits of types** – proved. *Model* Limits. The grid of floating point numbers, and the decimal constants rounded. *Result:* C162_comment: the comment in the source describes epsilon wrongly; adding to 1 changes it from half of epsilon on (C162_epsilon_exact). *Theorems:* `C162_int`, `C162_float`, `C162_normal`, `C162_denormal`, `C162_epsilon`, `C162_epsilon_exact`, `C162_comment`, `C162_sizes`.
* **C178 shuffle can give every order** – partial. *Model* Shuffle. Induction over the rounds; orders and states are counted for the negative part. *Result:* False: of more than twenty different elements there are more orders than states, so some order never comes (C178_missing_false). Proved: the result is what the draws choose, every order belongs to exactly one list of choices, and every element comes to the front for the same number of states up to the remainder. Not proved: how many states give each order of three to twenty elements, as the later draws are functions of the first. *Theorems:* `C178_choices`, `C178_once`, `C178_front_partial`, `C178_missing_false`.
* **C182 Streams of random numbers keep apart** – partial. *Model* RngShare. The hash is a bijection, so streams that meet are shifted copies. *Result:* False: a stream whose seed was drawn from another stream repeats it, and for any two threads and every time of one there is a time of the other that gives the same seed. Proved: exactly when streams meet, and what follows. *Theorems:* `C182_share_partial`, `C182_merge_partial`, `C182_shift_false`, `C182_seed_false`.

### Containers

* **C12 Vec behaves as a sequence** – proved. *Model* Vec, Mem. Refinement: every program over any number of Vec variables gives the outputs of the same program over lists (`Spec/Seq`), or dies exactly where the list program is undefined. *Result:* All programs over any number of Vec variables; preconditions violated iff assert. *Theorems:* `C12_vec_refines_list`.
* **C13 Vec owns each element exactly once** – proved. *Model* Vec, Mem. Same runs: no `ub`, no `leak`, and destroying all variables frees every block. *Result:* Element lifetimes and blocks tracked by the memory model; destroying all variables leaves no block. *Theorems:* `C13_vec_owns_elements_once`, `C13_vec_no_memory_error`.
* **C14 Vec push of an own element is safe** – proved. *Model* Vec, Mem. The copy is made before the buffer grows, for every representation state. *Result:* push(v[i]) for any representation state; contrast: emplace(v[i]) of a full vector is a use after free. *Theorems:* `C14_push_own_element`, `C14_emplace_own_element_is_ub`.
* **C15 Stack is last-in first-out** – proved. *Model* Vec, Mem. Corollary of the refinement, against `Spec/Stack`. *Result:* All push/pop/top/length/clear programs. *Theorems:* `C15_stack_is_lifo`.
* **C16 Queue is first-in first-out across wrap-around and growth** – proved. *Model* Queue, Mem. Ring buffer refinement to lists with u64 wrap-around of `last_` and the index arithmetic. *Result:* All programs over queue variables without clone/erase_first (those are C18, C19), with u64 wrap-around index arithmetic. *Theorems:* `C16_queue_is_fifo`.
* **C17 Queue owns each element exactly once** – partial. *Model* Queue, Mem. Same runs with ownership. *Result:* Holds for all programs whose clone/erase_first calls are of the kind the code gets right; false otherwise (witnesses). *Theorems:* `C17_queue_owns_elements_once_partial`, `C19_erase_first_leaks`, `C18_clone_nontrivial_false`.
* **C18 Queue clone copies the queue** – partial. *Model* Queue, Mem. Runs of `clone` from every representation state. *Result:* Proved for plain data; refuted for elements with clone/copy constructor (last element omitted, empty queue clones garbage), for every queue: the clone of each queue that is not empty lacks its last element, so that destroying it is undefined, and cloning an empty one with room for more than one element is undefined. *Theorems:* `C18_queue_clone_partial`, `C18_clone_torn_all`, `C18_clone_empty_all`, `C18_clone_nontrivial_false`, `C18_clone_empty_false`.
* **C19 Queue erase_first removes the first match** – partial. *Model* Queue, Mem. Runs of `erase_first` from every representation state. *Result:* Proved when the value does not occur before the last position; refuted otherwise. Otherwise, the exact (wrong) result is proved for plain data, and that an element leaks for owning ones if at least two elements follow. *Theorems:* `C19_erase_first_partial`, `C19_erase_first_exact`, `C19_erase_first_leaks_all`, `C19_erase_first_false`, `C19_erase_first_leaks`.
* **C20 Heap top is a minimum** – proved. *Model* Heap, Mem. Heap order and permutation invariant for any strict weak order; traces against `Spec/Heap`. *Result:* All programs, any strict weak order. top() on an empty heap is unchecked (witness). *Theorems:* `C20_heap_top_is_min`, `C20_programs`, `C20_top_empty_is_ub`.
* **C21 Draining a heap sorts** – proved. *Model* Heap, Mem. Induction on the drain; sorted and a permutation. *Result:* All lists, any strict weak order. *Theorems:* `C21_heap_drain_sorts`, `C21_heap_drain_sorts_any`.
* **C74 Heap owns each element once** – proved. *Model* Heap, HeapWorld, Mem. Same runs with ownership; C74_programs does it for programs over several heaps (moves, clones, scopes), every block belonging to exactly one variable. *Result:* All programs on one heap including h = h.clone(), and all programs over several heaps with construction from elements, moves (also onto itself), clones and scopes; precondition: no top() on an empty heap. *Theorems:* `C74_heap_owns_elements_once`, `C74_programs`.
* **C22 Map lookups return the last inserted value** – proved. *Model* Map. Robin Hood invariant (probe distances, no holes before an entry); every operation refines a finite map (`Spec/Map`), for any hash function into 64 bits. *Result:* All programs on one map from Map() or Map(n), n != 1, without reserve(1); any hash function into 64 bits; memory exhaustion only when the demand exceeds the limit. Slots are moved whole, so construction/destruction of the stored pair is not tracked. *Theorems:* `C22_map_is_finite_map`, `C22_map_with_capacity`.
* **C23 Map length counts the keys** – partial. *Model* Map. Refinement with a strict length on histories without re-insertion. *Result:* False as stated: inserting a present key still increments length_. Proved for programs that never insert a present key; in general length() is the number of insertions, repeated ones too, less erasures (C23_length_exact). *Theorems:* `C23_length_partial`, `C23_length_exact`, `C23_length_false`.
* **C24 Map iteration visits every entry exactly once** – proved. *Model* Map. The slot walk lists the finite map without repetition. *Result:* All reachable maps. *Theorems:* `C24_iteration`.
* **C25 Erasing a key disturbs no other key** – proved. *Model* Map. Backward shift deletion keeps the invariant. *Result:* All reachable maps. *Theorems:* `C25_erase`.
* **C26 Growing a map preserves its contents** – proved. *Model* Map. Rehashing loop keeps the abstraction. *Result:* All reachable maps and all capacities except 1 (see C27). *Theorems:* `C26_reserve`.
* **C27 Map operations terminate** – partial. *Model* Map. Fuel `capacity + 2` suffices for every loop; the hang holds for every fuel. *Result:* False as stated: Map(1) followed by three insertions never returns (proved for every number of steps). Proved for every map that was not asked for capacity 1. *Theorems:* `C27_terminates_partial`, `C27_capacity_one_hangs`, `C27_full_table_hangs`.
* **C28 Map clone has the same contents** – partial. *Model* Map. Slot-wise copy; the new capacity is rounded, the old one need not be. *Result:* False as stated: after reserve(33) the clone has another capacity and lookups in it fail. Proved for capacities that are powers of two; for all others the clone still lists the same entries. *Theorems:* `C28_clone_partial`, `C28_clone_iterates`, `C28_clone_false`.
* **C29 get_or_insert returns the present or a fresh default value** – proved. *Model* Map. From the refinement. *Result:* All reachable maps. *Theorems:* `C29_get_or_insert`.
* **C93 Map destroys each key and value exactly once** – proved. *Model* MapMem. Slots as a hash word and raw or live storage, with a ledger of pairs constructed and destroyed; Hoare rules for `Map_Slot`'s members; invariant over programs; refinement of `Model/Map`. *Result:* For every program over several maps, including capacity 1 and self-moves. A loop that does not end (C27) is the outcome hang. Assignment through a reference counts as the end of one pair and the start of another. *Theorems:* `C93_map_owns_pairs_once`, `C93_map_no_memory_error`, `C93_map_pairs_accounted`, `C93_map_in_storage_is_finite_map`.
* **C103 Map::get by String_View agrees with get by key** – partial. *Model* Map. Through the lookup lemma of C22, with the missing emptiness check. *Result:* True for maps that have a table. On a map without one (never inserted into) get(String_View) reads through the null table where get reports the missing key. Keys are compared by an equality that agrees with the hash (see C07, C39). Found missing by a seeded bug. *Theorems:* `C103_get_view_partial`, `C103_get_view_null_false`.
* **C122 Tuples and pairs keep their elements in order** – proved. *Model* Fixed. A ledger of objects constructed and destroyed; a small Hoare logic; induction over the members. *Result:* Element types obey the contract of their constructors, clone and moves. *Theorems:* `C122_make`, `C122_get_put`, `C122_invoke`, `C122_clone`, `C122_pair_clone`.
* **C123 Array indexing is checked and clones are deep** – proved. *Model* Fixed. Loop invariant over the part already cloned, on the ledger of C122. *Theorems:* `C123_index`, `C123_clone`.
* **C124 swap exchanges two objects** – partial. *Model* Fixed. The three memcpy or the three moves, on the ledger of C122. *Result:* Proved for owning elements, and for different objects of plain data. False for plain data swapped with itself: memcpy with equal source and destination is undefined, and shuffle does it whenever it draws the element's own place. *Theorems:* `C124_swap_partial`, `C124_self_plain`, `C124_shuffle_owning`, `C124_shuffle_plain_partial`.
* **C130 Slices and references** – partial. *Model* Slice. Refinement: slices as lists of places. *Result:* Refinement for all programs whose parts end at a 64-bit number, and for references never moved to themselves. False beyond: the check of sub adds its arguments with wrap-around, so that parts beyond the array are accepted; a reference moved to itself is null. *Theorems:* `C130_slices_partial`, `C130_wrap`, `C130_false`, `C130_refs_partial`, `C130_refs_false`.
* **C137 Emplacing a container's own element** – partial. *Model* Own. Case split on fullness; after grow the old block is dead. *Result:* True exactly when the container is not full. For every full container the argument is read after grow has freed the buffer it refers to. Erasing through the own key is fine. *Theorems:* `C137_vec_partial`, `C137_vec_false`, `C137_queue_partial`, `C137_queue_false`, `C137_heap_partial`, `C137_heap_false`, `C137_map_partial`, `C137_map_false`, `C137_erase`.
* **C140 Changing a map while iterating over it** – partial. *Model* MapWalk. Induction over the turns of the loop; each erase keeps the table in order and its capacity. *Result:* Proved: the loop ends, visits only entries of the map and removes exactly what its body erases; and erasing after a first loop has collected the keys removes exactly those entries. False: when an entry is erased the next one moves into its slot and is missed, and an entry at the beginning of the table may move to its end and be visited twice. A body that inserts can make the loop leave the table. *Theorems:* `C140_erase_partial`, `C140_collect`, `C140_missed_false`, `C140_twice_false`, `C140_insert_false`.
* **C154 Growing a container costs amortised constant time** – partial. *Model* Growth. Over the models of the containers: the capacity doubles from its first value, so that the elements moved so far are bounded by the capacity, and this by the elements added. *Result:* Holds for push and insert of Vec, Stack, Queue, Heap and Map, with removals in between. False for Vec::extend and resize, which reserve exactly what they need: extending by one element n times moves n(n-1)/2 elements. *Theorems:* `C154_vec_partial`, `C154_queue`, `C154_heap`, `C154_map`, `C154_false`.
* **C156 Heap operations take logarithmic time** – proved. *Model* HeapCost. The functions of C20 with counters, proved to do the same; induction over the depth in the tree. *Result:* Comparisons and swaps are counted; growing is C154. The bounds do not need operator< to be an order. *Theorems:* `C156_same`, `C156_push`, `C156_pop`, `C156_push_exact`, `C156_pop_exact`, `C156_programs`, `C156_sort`.
* **C159 Containers have room for the capacity they report** – partial. *Model* Room. An invariant tying the bytes of the block to capacity, length and position; exact results for requests whose bytes wrap. *Result:* The code is wrong for requests of 2^64 bytes or more: C159_room_partial is the property for all programs that stay below that, C159_ctor_exact and C159_reserve_exact say for every larger request what happens, C159_extend_wraps that a vector extended past 2^64 elements becomes shorter, and C159_false is a concrete program writing outside its block. Map, String and Slab arithmetic is not in this model. *Theorems:* `C159_room_partial`, `C159_pushes`, `C159_ctor_exact`, `C159_reserve_exact`, `C159_extend_wraps`, `C159_false`.
* **C165 Map operations look at few slots** – partial. *Model* MapCost. The loops with the number of turns left open: a search that has not ended has passed as many distinct occupied slots as it has made turns. *Result:* False for erasing a key that is not there: an empty slot does not end the search of try_erase, and with one entry in 2^e slots it goes over all 2^e of them (C165_erase_false). Everything else is proved. *Theorems:* `C165_lookup_partial`, `C165_exact`, `C165_longest`, `C165_insert_partial`, `C165_erase_partial`, `C165_erase_capacity`, `C165_erase_false`.
* **C174 Changing a vector or a queue while iterating over it** – partial. *Model* SeqWalk. Induction over the elements still to be visited; when a push grows, the frame condition says that the old block is gone, and it stays gone. *Result:* False: a loop over a vector that adds elements reads storage given back exactly if what is added before its last turn does not fit into the capacity; removing makes both visit places without an element, and a loop over a queue then skips elements. Proved: the exact condition for vectors, that adding to a queue in a loop is always fine, and that both otherwise behave as the loop over a list. *Theorems:* `C174_vec_push`, `C174_vec_partial`, `C174_queue_partial`, `C174_queue_push`, `C174_vec_false`, `C174_queue_false`.
* **C181 Room reserved ahead is used** – partial. *Model* Reserve. Every operation that stays within the capacity keeps block and capacity; induction over the program. *Result:* True of Vec, Queue and Heap. False of Map: it grows at three quarters of the reserved capacity, and overwriting an entry counts as adding one. *Theorems:* `C181_vec`, `C181_queue`, `C181_heap`, `C181_map_partial`, `C181_map_false`.
* **C183 Maps with the same contents look the same** – partial. *Model* MapOrder. From C24: both lists have no key twice and the same members. *Result:* Proved up to the order: the same lookups if and only if the same entries are listed. False of the order of iteration and of length(). *Theorems:* `C183_entries_partial`, `C183_lookups_partial`, `C183_order_false`.

### Allocators

* **C30 Live ranges are disjoint and inside the heap** – partial. *Model* Range. Tiling invariant on the physical block list with the bucket lists; specification by the list of grants a user holds (`Spec/Range`). *Result:* All histories of allocate/free (each free of a range in use), any heap size and Bias, fewer than 256 Buckets, size+align <= 2^64. False beyond: size+padding wraps and a range longer than the heap is granted. With 256 or more Buckets a request on a full heap never returns (the index is a u8). *Theorems:* `C30_ranges_partial`, `C30_start_partial`, `C30_progress_partial`, `C30_ranges_false`, `C30_full_hangs`.
* **C31 Allocated ranges are aligned** – partial. *Model* Range. Padding arithmetic. *Result:* All histories, size+align <= 2^64 and fewer than 256 Buckets (see C30). *Theorems:* `C31_aligned_partial`.
* **C32 Freeing everything restores the pristine heap** – partial. *Model* Range. No two free blocks are neighbours, so no grants means one free block. *Result:* All histories that end with no range in use, size+align <= 2^64 and fewer than 256 Buckets (see C30). *Theorems:* `C32_clear_partial`, `C32_in_use_dies_partial`.
* **C33 Allocation fails only for lack of a fitting block** – partial. *Model* Range. Bucket search against the maximal gaps between the grants. *Result:* All histories, size+align <= 2^64 and fewer than 256 Buckets (see C30). Padding counts as used. *Theorems:* `C33_fails_only_if_full_partial`, `C33_gap_suffices_partial`.
* **C34 Range allocator statistics are exact** – partial. *Model* Range. Sums over the tiling. *Result:* All histories, size+align <= 2^64 and fewer than 256 Buckets; the witness for C30 also shows an allocated_size that is not the sum over the ranges. *Theorems:* `C34_statistics_partial`, `C34_totals_partial`, `C30_ranges_false`.
* **C35 Region memory stays valid until its scope ends** – partial. *Model* Region. Chunk stack and region stack invariant; blocks handed out are disjoint, inside a live chunk, and stay so until their scope ends. *Result:* One thread; proved for every sequence of begin, allocate and end with requests below 2^63 bytes. Chunk contents are not modelled. For requests close to 2^64 the size computation wraps and the property is false (C35_valid_false). *Theorems:* `C35_valid_partial`, `C35_alloc_progress_partial`, `C35_valid_false`, `C35_huge`.
* **C36 Ending a region scope releases exactly its allocations** – proved. *Model* Region. State restored field by field; all chunks returned at the outermost end. *Result:* For the sequences of C35 (a request that wraps is outside of them). *Theorems:* `C36_end_restores`, `C36_chunks`, `C36_all_returned`.
* **C37 Allocating from a region that is not innermost is always caught** – proved. *Model* Region. Brand of the innermost scope. *Result:* Brands are distinct numbers per region type; recursion through the same brand is not distinguished by the code. *Theorems:* `C37_wrong_brand`, `C37_end_outside`, `C37_depth`.
* **C38 Free_List never hands out a live object** – proved. *Model* Region (Free_List). Free stack and live objects are disjoint and together all that was obtained. *Result:* Single thread; Base is any source of unused addresses. *Theorems:* `C38_free_list`.
* **C101 Destroying a Range_Allocator gives back all its blocks** – partial. *Model* RangeOwner. The free lists of the C30 invariant are walked bucket by bucket; every address is a free block, a range in use or in the pool. *Result:* True if all ranges were freed. The records of ranges in use are never given back: reset walks the free lists only. Requests with size+align <= 2^64, fewer than 256 Buckets (see C30). *Theorems:* `C101_destructor_exact`, `C101_destructor_frees_all`, `C101_live_ranges_leak`.
* **C102 A Range_Allocator can be moved** – partial. *Model* RangeOwner. The allocator with the lifetime of its mutex; statement for every pair of states. *Result:* The contents are handed over, but false as stated: the assignment runs the destructor of its target and no constructor, so the mutex of every allocator that was moved into is destroyed; each later operation, its own destructor included, locks it, which is undefined (glibc: the program dies). *Theorems:* `C102_move_contents_partial`, `C102_moved_unusable`, `C102_move_reached`, `C102_self_move`, `C102_move_ctor`.
* **C111 Names of the object pools** – proved. *Model* PoolName. Induction over the two loops, with C04 for the powers of ten; the digits are specified by their value. *Result:* For every size but zero (no type has size zero). *Theorems:* `C111_name`, `C111_distinct`.
* **C112 Mpool: object pools shared by threads** – proved. *Model* Mpool. Invariant counting for each block who has it: the free list, the program or a thread under way; the lock holder is the only thread in the list. *Result:* The steps inside the lock are separate events, so the proof depends on the mutex. The pthread mutex is modelled; the system allocator never fails and returns unused addresses. *Theorems:* `C112_safe`, `C112_kept`, `C112_finishes`, `C112_all_returned`.
* **C121 Region memory is aligned** – partial. *Model* Region. Induction over the growth of the chunks (C35). *Result:* Proved for alignments up to 8 if all sizes requested are multiples of the alignment. False otherwise: alloc does not round, so one byte misaligns all later blocks of the chunk; and types aligned to 16 bytes are never aligned in chunks from malloc, because of the header of 24 bytes. *Theorems:* `C121_aligned_partial`, `C121_never_16`, `C121_aligned_false`.
* **C138 Regions in coroutines** – partial. *Model* RegionCo. Induction over schedules; every thread is idle between stretches. *Result:* Proved if no coroutine suspends inside a region. False otherwise: the scopes are per thread, so that the coroutine fails a check on another thread or after another coroutine opened a region; if both run the same code the brands agree, and the memory of one is given back by the other without any check failing. *Theorems:* `C138_coroutines_partial`, `C138_memory_partial`, `C138_other_thread_false`, `C138_other_region_false`, `C138_same_code_false`.
* **C167 Ranges come from the lowest class with room, and few blocks are looked at** – proved. *Model* RangeCost. The search with its number of turns left open is a search of a list ordered by class; what follows the classes in question has room anyway. *Result:* Requests whose size and alignment overflow and 256 or more buckets are excluded as in C30, where they break the allocator. Within a class the gap released last is taken, not the best (C167_not_best). *Theorems:* `C167_class`, `C167_twice`, `C167_turns`, `C167_not_best`.

### Strings, formatting and parsing

* **C39 String equality is equality of contents** – partial. *Model* Str. `strncmp` on bytes; `cstr` is the prefix before the first zero byte. *Result:* False with embedded zero bytes (strncmp). Exact behaviour characterised; equality of contents proved when one side has no zero byte. *Theorems:* `C39_eq_exact`, `C39_eq_partial`, `C39_false`.
* **C40 String ordering is a strict total order** – proved. *Model* Str. Lexicographic order on bytes, stated independently. *Theorems:* `C40_lt_lexicographic`, `C40_lt_strict_total_order`.
* **C41 Path splitting loses nothing** – partial. *Model* Str. The backward scan against `SplitLast`. *Result:* Rejoining holds for all strings. The separator at index 0 is never inspected ('/foo'), and file_extension of a name without a dot is the name. *Theorems:* `C41_split_rejoins`, `C41_views_valid`, `C41_suffix_partial`, `C41_extension_partial`, `C41_extension_cut`, `C41_first_byte`, `C41_false`.
* **C42 Substring, append, write and terminate operate on exact byte ranges** – partial. *Model* Str. Exact byte ranges with u64 bounds checks. *Result:* write and Slice::sub check a sum that can wrap: write(2^64-1, 'a') writes before the buffer. Everything else proved. *Theorems:* `C42_sub`, `C42_set_length`, `C42_append`, `C42_terminate`, `C42_write_partial`, `C42_write_char`, `C42_slice_sub_partial`, `C42_copies`, `C42_write_false`, `C42_write_wraps`.
* **C43 Formatting measures exactly what it writes** – proved. *Model* Format, Str. A tree type of formattable values (numbers, strings, pairs, sequences, maps, records, enums, owning pointers ...); induction; the text itself is given by `Spec/Format.render`. *Result:* All nested values of a tree of formattable types; libc snprintf is taken to print what the C standard says. A map whose length() is wrong (C23) prints a trailing comma, consistently in both passes. *Theorems:* `C43_measure_write`, `C43_format_fills`, `C43_render`, `C43_render_map_length_false`.
* **C44 format substitutes arguments for percent signs** – proved. *Model* Format, Str. Both passes of the scanner against `subst`. *Result:* Results shorter than 2^63 bytes. *Theorems:* `C44_format`, `C44_format_mismatch`.
* **C45 concat joins its arguments** – proved. *Model* Format, Str. Against `join`. *Result:* Results shorter than 2^63 bytes. *Theorems:* `C45_concat`.
* **C46 parse_i64 inverts integer formatting** – proved. *Model* Format, Str. Decimal printing and a `strtoll` after the C standard. *Result:* strtoll is modelled after the C standard. *Theorems:* `C46_roundtrip`, `C46_number`, `C46_nothing`.
* **C47 parse_string splits off the first whitespace-delimited token** – partial. *Model* Format, Str. The scanner against words and white space. *Result:* False of the code for a one-byte token at the end of the input and for exactly one trailing white space byte; proved for all other inputs. *Theorems:* `C47_token_partial`, `C47_blank`, `C47_false_single`, `C47_false_trailing`.
* **C48 parse_enum inverts enum_name** – partial. *Model* Format, Str. From C47 and the reflection table. *Result:* Proved for names of at least two bytes; false of the code for one-byte names. *Theorems:* `C48_enum_partial`, `C48_false`, `C48_exact`.
* **C100 ASCII case conversion and white space** – proved. *Model* Str. Decision over all bytes, against the two alphabets written out. *Result:* The domain is finite and the proof covers all of it. Found missing by seeded bugs. *Theorems:* `C100_case`, `C100_fold`, `C100_whitespace`.
* **C104 skip_whitespace drops leading white space only** – proved. *Model* Format. The loop of parse_string, with the input split at the first byte that is not white space. *Result:* Found missing by a seeded bug. *Theorems:* `C104_skip_whitespace`.
* **C136 Strings own their memory and views follow it** – partial. *Model* StrOwner. Refinement: blocks of memory against values with views that name variables. *Result:* Refinement for all programs whose writes do not overlap their source. False beyond: write copies with memcpy, which is undefined for the bytes of a view of the same string that overlap, and for x.write(0, x). *Theorems:* `C136_strings_partial`, `C136_freed_partial`, `C136_overlap`, `C136_false`.
* **C141 Names of types** – partial. *Model* Typename. Names are taken apart in a unique way: mutual induction over types and arguments, one token at a time. *Result:* Which types have a name and which share one is determined exactly. False: a const pointer is named like a pointer to const, allocators are left out, the dimensions of arrays of arrays are in the wrong order, pointers to arrays are misspelt, arrays of const do not compile. Proved without these. *Theorems:* `C141_selected`, `C141_exists`, `C141_same`, `C141_distinct_partial`, `C141_spelling_partial`, `C141_false`.
* **C161 Formatted floating point numbers read back** – partial. *Model* FloatText. The value of the printed digits, and the grid of floating point numbers from 16 up, which is coarser than a millionth. *Result:* False of the code, as %f prints six decimals: exact from 16 up and for multiples of 1/64, within a millionth otherwise, and zero for everything up to half a millionth. snprintf and strtof are taken to round correctly. The sign of zero is not modelled. *Theorems:* `C161_number`, `C161_nearest`, `C161_shown`, `C161_close`, `C161_exact_partial`, `C161_dyadic_partial`, `C161_lost`, `C161_special`, `C161_any`, `C161_none`, `C161_false`.
* **C168 Formatted values can be told apart** – partial. *Model* Format. A typed universe of values; each text, followed by a delimiter, can be read back in only one way, by induction over the type. *Result:* Proved for types built from integers, booleans, characters, enumerations, sequences, maps, Opt, Box, Ref, Rc, Arc, pairs, tuples, records, variants of Named types and integer vectors, with sequences of single characters left out and enumerations holding one of their enumerators. False of strings inside of other values, which are not quoted, and of enumerations with an unnamed value. Floating point numbers are written with six decimals (C161). *Theorems:* `C168_distinct_partial`, `C168_prefix_partial`, `C168_false`.

### Ownership types

* **C49 Rc destroys its value exactly once, with the last handle** – partial. *Model* Rc. State machine of variables, blocks and handles stored inside blocks; counts equal the number of places that point to a block; a release terminates although destroying an object releases further handles. *Result:* Counts equal the live handles, the object is destroyed exactly when the last handle goes, no operation touches a dead object, for every legal program over handles in variables and inside objects. Missing: move assignment from a handle stored inside the object that the assigned handle is the last owner of (head = move(head->next)); there the code reads freed memory, and C49_false/C49_false_general prove it. *Theorems:* `C49_counts_partial`, `C49_last_handle_partial`, `C49_operations_partial`, `C49_read_partial`, `C49_false`, `C49_false_general`.
* **C50 Arc destroys its value exactly once under every schedule** – proved. *Model* Arc, Sched. Interleavings of the atomic steps of dup and drop in any number of threads. *Result:* Any number of threads, any schedule of dup, drop, move, use: no use after free, destroyed exactly once, after the last handle. One block; fewer than 2^63 handles. *Theorems:* `C50_arc`, `C50_finishes`.
* **C51 Opt constructs and destroys its payload in balance** – partial. *Model* Opt. Payload objects with identities; programs over any number of variables against `Spec/Opt`; made and destroyed objects balance. *Result:* Any program over any number of Opt variables, with moves to itself, copies and clones. Missing: o = move(*o) on an owning payload, which reads a destroyed payload (C51_false). *Theorems:* `C51_histories_partial`, `C51_all_destroyed_partial`, `C51_false`, `C51_self_undefined`.
* **C52 Variant dispatches to the held alternative** – partial. *Model* Variant. Same with the index and the dispatch tables; any list of up to 255 alternatives. *Result:* Any list of up to 255 alternatives, any program over any number of variables. Missing: v = move(v), which loses the value or is undefined (C52_false). *Theorems:* `C52_dispatch`, `C52_histories_partial`, `C52_false`, `C52_self_exact`.
* **C94 A Box owns its value alone and destroys it once** – partial. *Model* Box. Blocks of memory and chains of boxes; each block belongs to one chain (an invariant with one extra owner for the box an operation holds); refinement to lists. *Result:* For all programs that do not assign between two links of the same list and do not emplace a box's own value. For the rest it is false: assigning a link from further down its own list and emplacing the own value are undefined in every state, and assigning a list into its own link leaks it. *Theorems:* `C94_box_is_value_partial`, `C94_one_owner_partial`, `C94_all_destroyed_partial`, `C94_assign_from_inside_ub`, `C94_assign_into_itself_leaks`, `C94_emplace_own_value_ub`.
* **C95 A Function calls and releases the closure it holds** – partial. *Model* Function. Storage as raw, live or moved-from object next to the table pointer; refinement to variables that hold a closure or nothing, with a count of each closure. *Result:* Calls and the release of captures are right for all programs. The object a closure was moved from is never destroyed, one per move; this is harmless only for types whose moved-from state owns nothing. *Theorems:* `C95_calls`, `C95_released_once`, `C95_moved_from_never_destroyed`, `C95_false`.
* **C155 Values are freed when nothing leads to them** – partial. *Model* Rc. Over the model of C49: reachability from the variables, and the depth of the recursion as its fuel. *Result:* Holds as long as no value leads back to itself. A value that is part of a cycle no variable leads to is never destroyed, whatever the program does. Destroying n values that hold each other takes n nested calls, so that every stack is overflowed by some list. *Theorems:* `C155_held_partial`, `C155_freed_partial`, `C155_leak`, `C155_false`, `C155_depth`, `C155_deep`.
* **C157 Containers inside of containers** – proved. *Model* Nested. A relation between an address and a value tree with the blocks it owns, kept by every constructor, destructor and assignment by induction on the type; places are split off from their surroundings by induction on the path, two places at once for moves. *Result:* Precondition: an object is not put into something that it is a part of (push, emplace and assignment of an Opt from its own contents); C157_inside shows that the results are then wrong. Assignment of an object to itself is included, and leaves it empty. *Theorems:* `C157_values`, `C157_safe`, `C157_owned`, `C157_freed`, `C157_inside`.
* **C160 Objects are placed where their type allows** – partial. *Model* Place. Divisibility of powers of two along the layout of each class. *Result:* malloc answers with multiples of 16, so arrays, boxes and counted values are right exactly for alignments up to 16 (C160_elements_exact). Mpool compiles exactly for sizes from 16 up and powers of two (C160_pool_exact): alignas is given min(sizeof(T), 16). Variant and Function are right for all types. For memory of regions see C121. *Theorems:* `C160_elements_exact`, `C160_rc`, `C160_variant`, `C160_function`, `C160_pool_exact`, `C160_pool_partial`, `C160_false`.

### Concurrency

* **C53 A signalled Flag releases every waiter** – partial. *Model* Flag, Sched. Futex word and wait queue with spurious wake-ups; safety invariant and a bound on the steps of a waiter. *Result:* Linux futex version, any number of threads, every schedule with spurious wake-ups. Missing: a waiter interrupted by a signal handler, where block ends the program on EINTR (C53_false). *Theorems:* `C53_safe_partial`, `C53_returns_partial`, `C53_false`.
* **C54 Promise delivers the value to the blocked reader** – partial. *Model* Promise, Sched. Flag plus slot. *Result:* Every schedule of one fill and any number of blocks: nobody reads an unfilled slot, the first reader gets the value, readers of plain data all do. Missing: several readers of an owning type, where the later ones get a moved-from value (C54_false). *Theorems:* `C54_value_partial`, `C54_returns`, `C54_first_only`, `C54_false`.
* **C55 A coroutine frame is destroyed exactly once** – proved. *Model* Task, Sched. State word of the coroutine with all interleavings of the finishing coroutine, awaiting and blocking users and the owner. *Result:* Every interleaving of the coroutine, any number of awaiting and blocking users and the owner, who destroys the Task only while nobody is using it. *Theorems:* `C55_frame`, `C55_destroyed`.
* **C56 An awaited task resumes its awaiter exactly once, after completion** – partial. *Model* Task, Sched. Same system. *Result:* Proved for at most one awaiting coroutine with any number of blocking threads. Missing: several awaiting coroutines; the second one goes on without a result (C56_false). *Theorems:* `C56_awaiter_partial`, `C56_finishes`, `C56_second`, `C56_false`.
* **C57 Pool runs every job exactly once** – partial. *Model* Pool, Sched. Queues, mutexes and condition variables of any number of workers; submitted = taken + queued in order; no lost wake-up; shutdown. *Result:* Any number of workers (at least one) and submitting threads, every schedule with spurious wake-ups and any choice of queue: first in first out, exactly once, no lost wake-up, every job taken after a bounded number of steps of its worker, the destructor cannot deadlock. Missing: one hardware thread, where the first job divides by zero (C57_false). *Theorems:* `C57_jobs_partial`, `C57_runs`, `C57_shutdown`, `C57_false`.
* **C58 Pool pairs each event with its own job** – proved. *Model* PoolEvents. Parallel vectors of descriptors and jobs, epoll and eventfd contract. *Result:* Every history of registrations, firings, steps of the event thread and shutdown; descriptors may be reused after they are closed. *Theorems:* `C58_pairs`, `C58_fired`.
* **C59 Pool worker placement is valid** – proved. *Model* Pool. Arithmetic of the constructor. *Result:* Up to the 65 hardware threads the constructor allows; cores taken to be numbered from 0 to the number of hardware threads. *Theorems:* `C59_placement`, `C59_many`.
* **C96 spawn keeps its promise alive for both sides and gives everyone the result** – proved. *Model* Spawn. Product of the Arc and Promise models, driven by threads that only act on handles they own; invariants of both parts plus the place of the thread started; step counts for progress. *Result:* The function called is one step that yields a value and does not itself use the future. Waits are not interrupted by signals (see C53 for those); starting and detaching the thread succeed. The closure's allocator is not modelled. *Theorems:* `C96_spawn_lifetime`, `C96_result`, `C96_thread_ends`, `C96_block_returns`.
* **C97 Each thread is joined or detached once, by the one handle that holds it** – proved. *Model* Thread. Variables and operating-system threads; an operation that waits leaves the state as it is; invariant: the number of variables holding a thread is one exactly while it is joinable. *Result:* One thread owns the handles; system calls succeed where POSIX defines them; a thread joining itself is left out. Assigning a handle to itself waits for the thread and empties the handle (C97_self_assign_joins). *Theorems:* `C97_defined`, `C97_null_dies`, `C97_one_handle`, `C97_none_outlives`, `C97_join_waits`, `C97_self_assign_joins`.
* **C105 Thread::Flag on Windows** – partial. *Model* FlagWin. Simulation: below 2^16 signals every step is a step of the Linux flag of C53. *Result:* Proved for fewer than 2^16 signals of one flag. False beyond: signal increments an i16, so after 2^16 signals it is zero again, ready denies all of them and block sleeps. *Theorems:* `C105_safe_partial`, `C105_returns_partial`, `C105_wraps`, `C105_false`.
* **C106 Thread::Flag on macOS** – proved. *Model* FlagMac. Invariant of mutex and condition variable, and a drain argument for returning. *Result:* The mutex excludes and the condition variable wakes all waiters; spurious wake-ups are allowed. *Theorems:* `C106_safe`, `C106_returns`, `C106_calls_end`.
* **C110 Thread::sleep sleeps long enough** – partial. *Model* EventOs. Arithmetic modulo 2^32, an equivalence. *Result:* The exact range is proved: below 2^32 microseconds (POSIX), 2^32-1 milliseconds (Windows). Longer times are cut off; 2^32-1 ms on Windows is for ever. usleep and Sleep are modelled by the time they are asked for. *Theorems:* `C110_sleep_partial`, `C110_false`.
* **C113 Task::then gives the result of the continuation** – partial. *Model* Then. Invariant over all schedules; for the bad case, the outcome of every schedule in which the full expression ends early. *Result:* Proved if the full expression lasts until f was called (co_await t.then(f), t.then(f).block()) or t is finished at the call. Otherwise false: then is a coroutine that keeps the address of t and a reference to f, so with a temporary f the call is undefined, and with a temporary t the program ends. *Theorems:* `C113_then_partial`, `C113_finished_task`, `C113_ends_early`, `C113_false`.
* **C135 Priority and affinity of threads** – partial. *Model* Settings. The systems by their manuals, permissions as a parameter. *Result:* Proved for bounds at least 4 apart, for Windows, and exactly when binding and making a pool succeed. False: on Linux the bounds are those of the default policy, so that all levels are the same and real-time threads end the program; a pool ends the program on machines with more than 65 cores or with cores below the last that are not allowed. *Theorems:* `C135_choose_partial`, `C135_linux_false`, `C135_macos_partial`, `C135_windows`, `C135_affinity_partial`, `C135_affinity_windows`, `C135_pool_partial`.
* **C139 The pool has no data races and its locks do not deadlock** – partial. *Model* PoolRace. Lock sets: each thread's remaining operations are safe with the locks it holds; locks are taken in one order. *Result:* Proved for all interleavings except for one access: enqueue looks whether a queue is empty without its mutex, which is a data race with every push and pop of that queue. All other data is guarded, and all calls end under any schedule that gives each thread its turns. *Theorems:* `C139_races_partial`, `C139_false`, `C139_calls_end`.
* **C143 A Lock unlocks its mutex exactly once** – partial. *Model* Lock. Mutexes with their owner, Lock objects with their reference, one call of one thread as a step. *Result:* Holds if no Lock that holds a mutex is assigned to and each Lock ends on the thread that made it. False otherwise: an assignment to a Lock that holds a mutex, from another or from itself, forgets that mutex, which then stays locked for ever. *Theorems:* `C143_lock_partial`, `C143_ended_partial`, `C143_lost`, `C143_false`.
* **C145 Atomic counters lose nothing** – partial. *Model* Atomic. Each operation is one step; the second addition of the POSIX version is undefined on overflow. *Result:* Holds as long as the count fits into 64 bits. At the ends of the range the result is undefined on POSIX, where it is computed by a signed addition, and wraps on Windows. *Theorems:* `C145_counts_partial`, `C145_tickets_partial`, `C145_last_partial`, `C145_one_wins`, `C145_exchange`, `C145_loop_partial`, `C145_false`.
* **C152 Allocating, logging and profiling do not deadlock** – partial. *Model* Locks. All mutexes are taken in one order, from the finalizers to those of the callbacks; the thread with the highest one can go on. *Result:* Holds if callbacks of the log take only mutexes under which nothing else is done and callbacks of iterate_timings do not allocate. False otherwise: callbacks run with the mutex of the log, or of the thread that is shown, held. *Theorems:* `C152_calls_end_partial`, `C152_forever`, `C152_false`.
* **C171 Thread ids, and threads that join each other** – partial. *Model* Joins. Handles and numbers in use are distinct, an invariant of all runs; of the waiting threads the one of highest rank waits for one that runs or has returned. *Result:* False: on macOS Thread::id() is the number of the kernel and this_id() the address of the pthread, and two threads that hold each other's Thread wait for each other without end. Proved: on Linux and Windows the ids agree and differ between threads the system knows, the check in sys_join fires exactly for a thread that joins itself (all platforms), and threads that join in the order of some rank are never stuck. *Theorems:* `C171_ids_partial`, `C171_this`, `C171_mac`, `C171_self`, `C171_live_partial`, `C171_stuck_false`, `C171_ids_false`, `C171_reuse`.
* **C173 Handles of coroutines** – partial. *Model* Handles. The distance used is that of alignment 1; the least multiple of the alignment from 16 on is 16 exactly for the divisors of 16. *Result:* False for promises of alignment above 16: the header passes alignment 0 to __builtin_coro_promise, so from_promise and promise are off by the difference to 16; a Task with such a result resumes where no frame begins, and the end of the coroutine looks for the state in the wrong place. Proved for all alignments up to 16. That the distance is the alignment rounded up from two pointers is taken from the compilers. *Theorems:* `C173_promise_partial`, `C173_promise_off`, `C173_inverse`, `C173_eq`, `C173_resume_partial`, `C173_handover_partial`, `C173_ended_first_partial`, `C173_abandon_partial`, `C173_false`.

### Profiler and log

* **C60 Allocation statistics balance** – proved. *Model* Stats. Any interleaving of the parts of alloc and free; sums over live blocks. *Result:* Any number of threads and names, every interleaving of the steps of alloc and free; fewer than 2^63 bytes asked for in total. *Theorems:* `C60_stats`, `C60_balanced`, `C60_leaks`.
* **C61 Profiler call counts and times belong to the scope entered** – partial. *Model* Profile. Timing tree against the trace of paths entered (`Spec/Profile`). *Result:* The tree has exactly one node per path entered and self times are right, for all frames. Counts and inclusive times are right for paths that were entered at most once and have no sub-path entered twice; they are wrong otherwise: enter updates the parent on a repeated entry. C61_exact says what is recorded in every case. *Theorems:* `C61_tree`, `C61_self`, `C61_times_partial`, `C61_exact`, `C61_false`.
* **C62 Profiler keeps a bounded history of frames** – proved. *Model* Frames, Queue. Over the Queue model; the last eight frames of the full history. *Result:* All operation sequences of a thread over the Queue model; memory for eight frames available. C62_finalize_dies records that ending a thread inside a frame always stops the program. *Theorems:* `C62_history`, `C62_timings`, `C62_finalize`, `C62_finalize_dies`.
* **C77 begin_frame returns the time since the previous frame began** – partial. *Model* Frames, Profile. Begin times of the last two frames. *Result:* Right unless a scope was entered twice directly under the previous frame; then enter has moved the previous frame's begin. *Theorems:* `C77_since_partial`, `C77_false`.
* **C63 Each log subscriber is called once per message until it unsubscribes** – proved. *Model* Log, Map. Over the Map model: tokens and deliveries against a list of subscriptions. *Result:* All histories of subscribing, unsubscribing and logging over the Map model, memory for the operations available. A history ends early only at an unknown token or at a subscriber that uses the log, see C78. *Theorems:* `C63_delivery`.
* **C78 Log calls return or end the program** – partial. *Model* Log. The log's mutex is not recursive; re-entry is `hang`. *Result:* No call hangs unless a token is unknown or a subscriber uses the log. In these two cases the call takes the lock it already holds: die logs its message while unsubscribe holds the log's lock, and output holds it during delivery. *Theorems:* `C78_returns_partial`, `C78_hangs`, `C78_false`.
* **C127 A failed check is reported** – partial. *Model* Report. Induction over the nesting of the calls, over states reached by the region model. *Result:* Proved with at most 126 scopes open and room for the text. False otherwise: log opens a scope of its own, so with 127 scopes open the check on the number of scopes fails inside log, which logs, and so on without end (the stack overflows); the same when neither the text nor the message about missing memory fits. *Theorems:* `C127_reports_partial`, `C127_log_restores_partial`, `C127_depth`, `C127_no_memory`, `C127_replaced`, `C127_false`.
* **C128 Threads can use the profiler at the same time** – partial. *Model* ProfileSync. Invariant over all interleavings relating both locks, the table and the accesses under way; a measure of remaining steps for termination; a state that no event leaves for the callback. *Result:* Proved for all interleavings in which no thread ends while iterate_timings runs (frames properly opened and closed): no race, no dangling access, and all calls end under any schedule that gives each thread its turns, with callbacks that do not use the profiler. False beyond: the destructor of a thread's profile drops the frames without their lock, and a callback that allocates or enters a scope waits for a lock its own thread holds. *Theorems:* `C128_safe_partial`, `C128_table`, `C128_calls_end`, `C128_misuse`, `C128_exit_in_frame`, `C128_false`, `C128_callback_hangs`.
* **C132 A log line shows the message** – partial. *Model* LogLine. printf by the C standard on views. *Result:* Proved for all messages of less than 2^31 bytes without zero byte. False beyond: the message is cut at a zero byte; lengths are passed where printf takes an int, so that from 2^31 bytes on it reads up to a zero byte wherever that is. *Theorems:* `C132_line_partial`, `C132_truncated`, `C132_long`.
* **C133 The text of a system error** – partial. *Model* SysError. Texts as a parameter, conversion from UTF-16 by the standard. *Result:* Proved for all texts of at most 255 units and 256 bytes, and exactly when the call returns. False: the carriage return stays; if the text of error 122 does not fit into the buffer, a call that needs it recurses without end. *Theorems:* `C133_text_partial`, `C133_fits`, `C133_conversion`, `C133_return`, `C133_returns_iff`, `C133_too_long`, `C133_recursion`.
* **C134 Finalizers and the final report** – partial. *Model* Finalize. One thread, locks as flags. *Result:* Proved if no finalizer registers another and no log callback allocates. False otherwise: the lock is held while the finalizer or the callback runs, which waits for it forever. *Theorems:* `C134_finalize_partial`, `C134_register`, `C134_callback`.
* **C164 Durations** – proved. *Model* Duration. Bounds for each rounding, and that all numbers on the way are within the range of normal numbers. *Result:* The relative error is at most 2^-24 + 2^-50 for every frequency; whole milliseconds are exact up to 2^24. *Theorems:* `C164_counter`, `C164_wraps`, `C164_accuracy`, `C164_order`, `C164_exact`.
* **C172 The times in the log** – partial. *Model* LogTime. Console lines and pending calls of a thread together are its calls, an invariant of all runs; the thread with the lock is the one whose line the file lacks. *Result:* False: the clock is read before the lock is taken, so lines of different threads can be out of order; the time is a view of a buffer of the thread, and a callback that calls sys_time_string changes the time in the file; a time whose year does not fit is undefined. Proved for all schedules: the console has each thread's calls in order with their times, the file has the same messages in the same order, and the same times if callbacks show only the time they were given. *Theorems:* `C172_text`, `C172_console`, `C172_thread_order`, `C172_messages`, `C172_file_partial`, `C172_defined`, `C172_file_false`, `C172_order_false`, `C172_text_false`.

### Files, sockets, events, timers

* **C64 Files::write stores the data** – partial. *Model* Files. open/write/close with arbitrary kernel answers. *Result:* The property is false of the code: Files::write opens the file for reading only, so it fails for every path, data and kernel answer (C64_never_writes), and leaves a descriptor open. *Theorems:* `C64_never_writes`, `C64_false`.
* **C65 Files::read returns the whole file** – partial. *Model* Files. open/seek/read/close with arbitrary kernel answers, short reads included. *Result:* Exact for regular files read in one piece. Short reads are reported as success with a zero-filled tail, errors leave the descriptor open, files of unknown size read as empty. *Theorems:* `C65_read_partial`, `C65_short`, `C65_error_leaks`, `C65_false`.
* **C79 Async::write stores the data** – partial. *Model* Files. open/write/close with arbitrary kernel answers. *Result:* Right when the kernel takes all data at once. Short writes are reported as success, errors leave the descriptor open, new files get arbitrary permissions. *Theorems:* `C79_write_partial`, `C79_short`, `C79_error`, `C79_false`.
* **C66 Write_Watcher reports each modification** – partial. *Model* Files. All sequences of time stamps. *Result:* Exact for all histories of time stamps after 1970. Changes within one second and time stamps before 1970 are missed. *Theorems:* `C66_poll_partial`, `C66_same_second`, `C66_false`.
* **C67 Udp sockets own their descriptor and report true lengths** – partial. *Model* Net. Descriptor ledger over programs with any number of sockets; recvfrom/sendto answers. *Result:* Never closed twice, for all programs; all closed if no socket in use is assigned to. Move assignment loses the old descriptor, for every program that does it, and only then; receive errors and oversized datagrams are reported with lengths beyond the packet. *Theorems:* `C67_no_double_close`, `C67_closed_partial`, `C67_false`, `C67_lost`, `C67_exact`, `C67_recv_partial`, `C67_recv_false`, `C67_send`.
* **C80 Async::Event owns its descriptor and wait_any names a signalled event** – partial. *Model* Net. Descriptor ledger; poll answers. *Result:* Ownership for all programs; wait_any for different valid descriptors without signal handlers. A signal handler, a moved-from event or a repeated descriptor end the program, and nothing else does. *Theorems:* `C80_owned`, `C80_self_assign`, `C80_wait_partial`, `C80_false`, `C80_wait_exact`.
* **C81 Event::signal, reset and try_wait agree** – partial. *Model* Net. eventfd counter. *Result:* Readiness is right for every sequence in which resets follow signals. try_wait always answers false; every reset that does not directly follow a signal ends the program. *Theorems:* `C81_signal_partial`, `C81_false`, `C81_exact`.
* **C68 Async::wait completes after its delay** – partial. *Model* Net. timerfd arithmetic. *Result:* Right for every positive delay within the kernel's clock range; the delay zero never ends. *Theorems:* `C68_wait_partial`, `C68_false`.
* **C107 Event::wait_any on macOS** – partial. *Model* EventOs. The loop that fills the change list keeps its last entry only; statement for every list and ready set. *Result:* Proved of the last event of the list. False of the others: the changes are all registered in one slot, so only the last event is waited for. The kernel (kqueue) is modelled. *Theorems:* `C107_last_partial`, `C107_others_missed`, `C107_no_event`.
* **C108 Event::signal and reset on macOS** – partial. *Model* EventOs. Counting, for every sequence of operations. *Result:* Signals and resets are counted in a pipe: proved for sequences that never reset more than they signal. Otherwise reset waits for ever, two signals survive one reset, and signal waits when the pipe is full. *Theorems:* `C108_count_partial`, `C108_false`, `C108_exact`.
* **C109 Events on Windows** – partial. *Model* EventOs. Statement for every list of handles and every set of signalled ones. *Result:* Proved for up to 64 events that were not moved from; with more the program dies. The kernel (WaitForMultipleObjects) is modelled. *Theorems:* `C109_event_partial`, `C109_false`.
* **C114 Files::read and Files::write on Windows** – partial. *Model* FilesWin. Case analysis over all answers of the system, on a model of the handle table. *Result:* Proved for files and data below 4 GiB transferred completely; for all answers of the system, what is returned and stored and which handles stay open is given exactly. False in general: a handle stays open if the size is not told; short transfers count as success; 4 GiB and more stop the program; the number of bytes is passed as null without OVERLAPPED, which the documentation forbids. *Theorems:* `C114_read_partial`, `C114_read_all`, `C114_size_leaks`, `C114_write_partial`, `C114_write_all`, `C114_write_dies`, `C114_false`.
* **C115 Async::read and Async::write on Windows** – partial. *Model* FilesWin. Case analysis over all answers of the system; rounding to sectors by C03. *Result:* Handles: proved for all answers of the system. Contents: proved for reads up to 2^32 - 4096 bytes and writes below 2 GiB whose transfer is pending and then complete. False in general: a transfer complete at once is reported as failure, a failed one as success with zeros; data from 2 GiB up are reported as failure and the file is left with up to 4095 extra zeros, because the file pointer is moved by a signed 32-bit distance. *Theorems:* `C115_read_partial`, `C115_read_all`, `C115_write_partial`, `C115_write_large`, `C115_write_all`, `C115_false`.
* **C116 Async::wait on Windows takes the time asked for** – partial. *Model* FilesWin. Arithmetic of the due time. *Result:* Proved for ms * 10000 < 2^63, zero included (unlike on Linux, C68). Beyond that the due time becomes an absolute date or wraps to less than a millisecond. *Theorems:* `C116_wait_partial`, `C116_false`.
* **C125 Udp on Windows reports every datagram** – partial. *Model* NetWin. Induction over what the kernel has for the receiving loop. *Result:* Proved: reported lengths are at most 1472, and a receiving loop sees all datagrams if they fit. False beyond: a datagram that does not fit, or an error, is reported as if nothing had arrived, after the packet was overwritten, and a loop stops there. send returns 2^64-1 on errors, reads behind the packet for longer lengths and wraps lengths at 32 bits. *Theorems:* `C125_length`, `C125_poll_partial`, `C125_false`, `C125_send`.
* **C126 Network addresses are read from the bytes of the view** – partial. *Model* NetWin. inet_pton is an arbitrary function of the text up to the zero byte; induction over the bytes read. *Result:* Proved on Windows, where text that spells no address becomes 0.0.0.0 with a warning, and on POSIX for views with a zero byte behind them. False on POSIX for other views: the length of the view is never used, so a sub-view is read beyond its end, possibly beyond its block. *Theorems:* `C126_windows`, `C126_posix_partial`, `C126_false`.
* **C131 Files are opened under the name given** – partial. *Model* Path. The terminated copy read up to its zero byte. *Result:* Proved for all views without zero byte (Windows: also exactly which names are too long). False for views with a zero byte: the file opened is the one named by what is before it. *Theorems:* `C131_posix_partial`, `C131_false`, `C131_windows_partial`, `C131_windows_false`.
* **C158 Descriptors and handles of events** – proved. *Model* EventFd. An invariant on the table of open numbers and the fields of all events, kept by every operation. *Result:* Precondition: of_sys is given a descriptor that its caller holds; C158_twice shows what happens otherwise, on each system. *Theorems:* `C158_owned`, `C158_closed`, `C158_others`, `C158_twice`.
* **C170 Write times and Write_Watcher on Windows** – partial. *Model* Watcher. Packing and unpacking of the halves are inverse; the watcher holds the last time seen, by induction on the polls, in memory that may change in between. *Result:* False: a file replaced by an older one is missed, a change within 100 ns is missed, and the watcher holds a view of the path: when the text is overwritten it compares with another file, when it is given back the poll is undefined. Proved: before is the order of the times, and while the text lives each poll returns true exactly if the file named by it is newer than that of the last successful look. *Theorems:* `C170_before`, `C170_pack`, `C170_follows_partial`, `C170_poll_partial`, `C170_later`, `C170_same_tick`, `C170_gone`, `C170_empty`, `C170_false`.
* **C176 The text of a socket error on Windows** – partial. *Model* WsaError. The buffer holds text and terminator; 15 characters and a number of at most 21 fit. *Result:* False: one byte of the two of the end of line is dropped, so the text ends in a carriage return; the bytes are in the code page of the user and not UTF-8; a text longer than 255 bytes is replaced by the number; and the next call in the thread overwrites the text that the view shows. Proved: the call always returns, and what the view reads as in each case. *Theorems:* `C176_text_partial`, `C176_return`, `C176_next`, `C176_room`, `C176_false`.
* **C177 The text of a system error on Linux and macOS** – partial. *Model* PosError. By cases on what the library knows; the text with the number fits the buffer. *Result:* False: on macOS an unknown number ends the process by the check on strerror_r, before the message the text was for; and the next call in the thread overwrites the text on macOS, and on Linux if the number is unknown. Proved: what the view reads as on Linux for every error, on macOS for every error with a text that fits, and exactly when the process ends. *Theorems:* `C177_linux`, `C177_mac_partial`, `C177_mac_dies`, `C177_room`, `C177_next_false`.

### Vector mathematics

* **C73 Vector operators mean component-wise arithmetic** – partial. *Model* Vect. Arbitrary element type with `Res`-valued operations (so overflow and division by zero are covered), any length; scalar and SIMD paths. *Result:* Right for all operators, types and lengths except scalar - vector and scalar / vector with SIMD, which swap their operands, and unary minus, which changes its operand. *Theorems:* `C73_ops`, `C73_left_partial`, `C73_swapped`, `C73_neg`, `C73_false`.
* **C86 Vector comparisons, constructors and maps are component-wise** – proved. *Model* Vect. Same. *Result:* All element types and lengths, with and without SIMD. *Theorems:* `C86_eq`, `C86_map`, `C86_minmax`.
* **C87 dot, norm2, min, max, lerp and unit compute what they say** – proved. *Model* Vect. Over an ordered field. *Result:* All lengths over any ordered field. *Theorems:* `C87_dot`, `C87_extreme`, `C87_lerp`, `C87_unit`.
* **C69 Mat4 multiplication is composition of transforms** – proved. *Model* Mat4. `Matrix (Fin 4) (Fin 4) K` of Mathlib as the specification; the SIMD broadcast code column by column. *Result:* All operators of Mat4 are those of 4x4 matrices over any field. *Theorems:* `C69_matrix`, `C69_compose`, `C69_points`, `C69_affine`.
* **C70 Mat4::inverse inverts** – proved. *Model* Mat4. Block inverse of the clang path; adjugate identities. *Result:* For every matrix with nonzero determinant over any field, the clang code path. *Theorems:* `C70_inverse`, `C70_invertible`.
* **C82 Mat4::scale, translate and rotate are what they say** – proved. *Model* Mat4. Ring identities; Rodrigues' formula and orthogonality. *Result:* Rodrigues' formula for every axis, cosine and sine. *Theorems:* `C82_scale_translate`, `C82_swap_x_z`, `C82_rotate`, `C82_rotation`.
* **C83 Mat4::ortho maps the viewing box to the clip box** – partial. *Model* Mat4. Field identities. *Result:* Right for x and y; the depth mixes two conventions and is wrong for every near and far plane except in degenerate cases. *Theorems:* `C83_ortho_partial`, `C83_depth`, `C83_false`.
* **C84 Mat4::look_at puts the eye at the origin looking down -z** – proved. *Model* Mat4. Field identities with exact square roots. *Result:* For every eye, target and up vector not in line, with exact square roots. *Theorems:* `C84_look_at`.
* **C85 rotate_y_to and rotate_z_to turn the axis to the direction** – partial. *Model* Mat4. Field identities with exact square roots. *Result:* rotate_y_to is right away from -y, where it gives a reflection; rotate_z_to takes the z axis to the opposite direction. *Theorems:* `C85_rotate_y_partial`, `C85_reflection`, `C85_z`, `C85_false`.
* **C90 Mat4::proj is the perspective projection with reversed depth** – proved. *Model* Mat4. Field identities. *Result:* For every point not in the plane of the camera. *Theorems:* `C90_proj`.
* **C71 Quaternion rotation is consistent** – partial. *Model* Quat. Mathlib's `Quaternion` as the specification. *Result:* Everything for all quaternions except the inverse: q * inverse(q) is the norm of q. *Theorems:* `C71_quaternion`, `C71_algebra`, `C71_rotate`, `C71_rotate_pure`, `C71_axis_angle`, `C71_inverse_partial`, `C71_false`.
* **C88 Quat::euler makes the three turns** – partial. *Model* Quat. Products of axis rotations; also over the reals with sin and cos. *Result:* Right for all angles other than (180, 0, 0), for which the half turn about z is returned. *Theorems:* `C88_euler_partial`, `C88_euler_real_partial`, `C88_false`.
* **C89 to_euler recovers the rotation** – partial. *Model* Quat. atan2 by its defining property; also over the reals. *Result:* Right for every rotation unless the tilt is within EPS of gimbal lock without being there, where the code rounds to it. *Theorems:* `C89_to_euler_partial`, `C89_to_euler_real_partial`.
* **C72 Bounding boxes enclose** – proved. *Model* BBox, Mat4. Ordered field; smallest enclosing box as a minimum. *Result:* The hull of any list of points and nonempty boxes; transform gives the smallest box for every matrix. *Theorems:* `C72_enclose`, `C72_empty`, `C72_transform`, `C72_image`, `C72_center`.
* **C91 Transforming keeps empty boxes empty** – partial. *Model* BBox. Infinite corner values as a large constant. *Result:* Boxes with points keep some; the identity turns the default empty box into the box of everything. *Theorems:* `C91_nonempty_partial`, `C91_everything`, `C91_false`.
* **C92 BBox::project bounds the image** – partial. *Model* BBox. Corner loop; enclosing rectangle. *Result:* Right for affine projections with all corners in front. Perspective matrices are applied without dividing. *Theorems:* `C92_project_partial`, `C92_behind`, `C92_false`.
* **C129 Selecting among floating point numbers** – partial. *Model* Float. Comparison on sign and magnitude bits, exact without rounding; folds over lists. *Result:* Proved for all numbers without NaN (list versions: with one number that is finite or on the right side); clamp is within its bounds for every number. False beyond, with the exact behaviour proved: with a NaN, min and max return their second argument, so lists and boxes forget all that came before; the least of infinity alone is the largest finite number; clamp of NaN is the lower bound for numbers and the upper one for vectors; SIMD ignores a single NaN and never negates +0; the sign of NaN is 1. *Theorems:* `C129_min_max`, `C129_nan`, `C129_clamp`, `C129_list_partial`, `C129_list_nan`, `C129_list_false`, `C129_box_partial`, `C129_box_nan`, `C129_box_false`, `C129_simd`, `C129_neg`, `C129_sign`.
* **C142 The SSE and the clang version of the vector code agree** – partial. *Model* Simd. Both versions over an arithmetic without laws; intrinsics as in the Intel manual; masks computed as the macros do. *Result:* The lane-wise functions, the comparison and the inverse are the same to the last bit for any arithmetic. False of scalar products, which are summed in another order, and of min and max with NaN. *Theorems:* `C142_lanes`, `C142_inverse`, `C142_inverse_exact`, `C142_dp_partial`, `C142_min_partial`, `C142_false`.
* **C147 Degrees and radians convert with the accuracy of the type** – partial. *Model* Angle. Floating point numbers are rationals, rounded to nearest, ties to even; the constants are computed by the model. *Result:* Holds with the accuracy of f32 (2^-23). The factors are computed in f32 for f64 too: there every result is wrong from the ninth (radians) or eighth (degrees) digit on, and every angle is smaller after converting there and back. *Theorems:* `C147_accuracy_partial`, `C147_double_false`, `C147_back_false`.
* **C148 Interpolation reaches both ends and stays between them** – partial. *Model* Lerp. Rounding to nearest as for C147. Rounding is shown to keep the order and the numbers of the type, from which the rest follows; the exact case is Sterbenz's lemma. *Result:* The start is exact and it always moves towards the end. The end is reached and nothing is beyond it if the difference of the ends is exact, so if they are within a factor of two; otherwise it is false: from 10^8 to 1 it ends at 0. The error is bounded for all ends. *Theorems:* `C148_start`, `C148_moves`, `C148_end_partial`, `C148_error`, `C148_vector`, `C148_false`.
* **C149 smoothstep rises from 0 to 1** – partial. *Model* Lerp. The bound by 1 compares the rounded factors: near 1 the second one is exact and the first is rounded by at most one step. *Result:* Never below 0 or above 1, and exact outside the edges, also for equal and for exchanged edges. False: between neighbouring numbers of f32 it falls. *Theorems:* `C149_range`, `C149_edges_partial`, `C149_false`.
* **C150 frac is the fractional part** – partial. *Model* Lerp. The integer part of a number of the type, and the rest, are numbers of the type; so nothing is rounded. *Result:* For numbers from 0 to below 2^63 it holds and the difference is exact. For negative numbers that are no integers the result is negative; from 2^63 on the conversion to i64 is undefined. *Theorems:* `C150_part_partial`, `C150_false`, `C150_undefined`.
* **C151 Dot products and norms are accurate** – partial. *Model* Dot. Induction over the loop with the error of one rounding; the first sum, with zero, is exact. *Result:* Holds for norm2. For dot the bound is relative to the sum of the magnitudes of the products; relative to the result it is false, as products cancel: (4097, 1) times (4097, -16785408) is 1 and gives 0. *Theorems:* `C151_dot_partial`, `C151_norm2`, `C151_false`.
* **C153 unit and normalize give vectors of length one** – partial. *Model* Ieee. IEEE 754 arithmetic with infinities and denormals agrees with unbounded exponents in the middle of the range; there the errors of norm, root and quotient are multiplied. Outside, the sum of squares is infinite or zero. *Result:* Holds, with explicit bounds, for components whose squares stay in the range of the type. False otherwise: in f32 a vector with a component from 2^64 on becomes zero, and one with all components up to 2^-75 infinite or not a number, as the square of the norm overflows or underflows. *Theorems:* `C153_unit_partial`, `C153_length`, `C153_long`, `C153_short`.
* **C163 Views of vectors are the components they name** – partial. *Model* View. The loops over the components, with the components before the loop as values of the right side. *Result:* False for plain assignment between views that overlap in part, which copies overlapping memory. All other operations are right for all operands; accesses by number must be within the view (C163_undefined: everything else is undefined). *Theorems:* `C163_step_partial`, `C163_unique`, `C163_undefined`, `C163_programs_partial`, `C163_false`.
* **C166 Products of matrices, vectors and quaternions are accurate** – proved. *Model* Rounded. One predicate that a number is near another after n roundings of terms of a magnitude, closed under the operations; the model of the exact products is used at rounded numbers. *Result:* Exponents without limits. Relative to the result there is no bound (C166_cancel). Where the compiler fuses products and differences the bound of cross holds too, but cross of a vector with itself need not be zero (C166_cross_fused). *Theorems:* `C166_matrix`, `C166_points`, `C166_compose`, `C166_cross`, `C166_cross_self`, `C166_cross_fused`, `C166_cancel`, `C166_quat`, `C166_rotate`, `C166_exact`, `C166_det`.
* **C169 Bounding boxes with rounding** – partial. *Model* BBox. The model of boxes over rounded numbers; rounding is monotone, so each end bounds every sum made in the same order. *Result:* False for transform: it adds in another order than operator*, and the unit cube moved by 2^24 and sheared does not contain the image of a corner. Proved: the images are in the box made larger by four (exact images) or seven (rounded ones) roundings of the terms, and in the box itself when added in its order. The center is in the box unless the sum overflows. surface_area and project are right. Exponents have no limits except in C169_center_false. *Theorems:* `C169_center_partial`, `C169_center_false`, `C169_area`, `C169_transform_partial`, `C169_order`, `C169_transform_false`, `C169_project`.
* **C175 Matrices of quaternions with rounding** – proved. *Model* QuatRounded. Doubling is exact, the rest is counted as in C166. That the length is one for few only is the descent modulo 8: a power of four is a sum of four squares in the trivial ways only. *Result:* Exponents without limits, as in C166. *Theorems:* `C175_entries`, `C175_terms`, `C175_exact`, `C175_both`, `C175_apply`, `C175_length`.
* **C179 The perspective projection with rounding** – proved. *Model* ProjRounded. Products with the zeros of the matrix vanish; errors are propagated as in C166; rounding is monotone. *Result:* The tangent is taken as computed. Exponents have no limits in the model (no overflow or subnormal numbers). C179_close: two distances next to each other can have the same depth. *Theorems:* `C179_clip`, `C179_screen`, `C179_depth`, `C179_order`, `C179_close`.
* **C180 Rotations composed one after the other** – proved. *Model* QuatDrift. The triangle and Cauchy inequalities for squares of lengths; induction over the list. *Result:* Exponents have no limits in the model (no overflow or subnormal numbers). *Theorems:* `C180_drift`, `C180_thousand`.

## Disagreements between the code and the properties

Each line is proved by the named theorem as a run of the model.

| Where | What happens | Theorem |
|---|---|---|
| `Math::pow` | the unneeded last squaring overflows for i32/i64, u16 overflows through int promotion, negative exponents never end | C04_pow_i32_false, C04_pow_u16_false, C04_pow_negative_hangs |
| `operator==` of strings | stops at an embedded zero byte, hashes do not | C39_false, C07_false |
| `hash(f32/f64)` | `0.0 == -0.0` but their hashes differ | C07_float_zero_false |
| `RNG::shuffle` | `length() - 1` wraps for an empty vector, then `% 0` | C09_empty_false |
| `RNG::range` | signed types: negative remainders and overflow of `max - min` | C10_signed_false |
| `RNG::unit` | scales by 1e-24/1e-53 instead of 2^-24/2^-53 | C11_false |
| `Vec::emplace(v[i])` | argument dangles after growth | C14_emplace_own_element_is_ub |
| `Queue::clone` | leaves out an element, clones garbage for an empty queue | C18_clone_nontrivial_false, C18_clone_empty_false |
| `Queue::erase_first` | removes another element / leaks | C19_erase_first_false, C19_erase_first_leaks |
| `Heap::top` | unchecked on an empty heap | C20_top_empty_is_ub |
| `Map::insert` | counts a key again when it is already present | C23_length_false |
| `Map(1)` | usable capacity 0 is never reached, third insertion never returns | C27_capacity_one_hangs, C27_full_table_hangs |
| `Map::clone` | rounds the capacity that `reserve` did not round | C28_clone_false |
| `Range_Allocator` | `size + padding` wraps | C30_ranges_false |
| `Region` | request + header wraps | C35_valid_false |
| `file_suffix` etc. | separator at index 0 is not seen; extension of a name without dot is the name | C41_false |
| `String::write`, `Slice::sub` | bounds check on a sum that wraps | C42_write_false |
| format of a Map | trailing comma when `length()` is wrong | C43_render_map_length_false |
| `parse_string` | one-byte last token, exactly one trailing blank | C47_false_single, C47_false_trailing |
| `parse_enum` | one-byte names | C48_false |
| `Rc` move assignment | `head = move(head->next)` reads freed memory | C49_false |
| `Opt` move assignment | `o = move(*o)` reads a destroyed payload | C51_false |
| `Variant` move assignment | `v = move(v)` | C52_false |
| `Flag::block` | EINTR ends the program | C53_false |
| `Promise::block` | second reader gets a moved-from value | C54_false |
| `Task` | a second awaiting coroutine goes on without a result | C56_false |
| `Async::Pool` | with one hardware thread the first job divides by zero | C57_false |
| `Profile::enter` | repeated scopes update the parent | C61_false, C77_false |
| `Thread_Profile::finalize` | a thread ending inside a frame ends the program | C62_finalize_dies |
| Log | unknown token or a subscriber that logs: self-deadlock | C78_false |
| `Files::write` | opens read-only, never succeeds, leaks the descriptor | C64_never_writes |
| `Files::read` | short reads, errors and unknown sizes | C65_false |
| `Async::write` | short writes, errors, permissions | C79_false |
| `Write_Watcher` | same second, before 1970 | C66_false |
| `Udp` | move assignment loses the descriptor; lengths of errors and truncated packets | C67_false, C67_recv_false |
| `Event` | EINTR, repeated descriptors, `try_wait` always false, second reset | C80_false, C81_false |
| `Async::wait(0)` | never ends | C68_false |
| `Mat4::ortho` | depth | C83_false |
| `rotate_y_to`, `rotate_z_to` | reflection near -y; opposite direction | C85_false |
| SIMD vectors | `s - v`, `s / v` swapped, unary minus changes its operand | C73_false |
| `Quat::inverse` | product with q is the norm, not one | C71_false |
| `Quat::euler` | (180, 0, 0) | C88_false |
| `BBox::transform` | an empty box becomes everything | C91_false |
| `Box` | `b = move(b->next)` and `b.emplace(*b)` use a destroyed value; `b->next = move(b)` leaks | C94_assign_from_inside_ub, C94_emplace_own_value_ub, C94_assign_into_itself_leaks |
| `Function` | the closure object moved from is never destroyed | C95_moved_from_never_destroyed, C95_false |
| `Thread::operator=` | assigning a handle to itself joins the thread and leaves the handle null | C97_self_assign_joins |
| `Range_Allocator::reset` | the records of ranges in use are never freed | C101_live_ranges_leak |
| `Range_Allocator` move | the target's mutex is destroyed and locked again by every later operation | C102_moved_unusable |
| `Map::get(String_View)` | reads the null table of a map that was never inserted into | C103_get_view_null_false |
| `Thread::Flag` (Windows) | `signal` increments a 16-bit counter; after 2^16 signals the flag is unset | C105_false |
| `Event::wait_any` (macOS) | only the last of the events is registered with kqueue | C107_others_missed |
| `Event::signal`, `reset` (macOS) | a pipe counts the signals: one reset does not undo two signals, and a reset without signal waits for ever | C108_false |
| `Event::wait_any` (Windows) | dies for more than 64 events | C109_false |
| `Thread::sleep` | the time in microseconds is cut to 32 bits: 72 minutes last 25 seconds | C110_false |
| `Range_Allocator` with 256 buckets or more | the bucket index is a `u8`; a request on a full heap never returns | C30_full_hangs |
| `Task::then` | keeps a reference to the function object and the address of the task: undefined when the full expression ends before the task is finished | C113_false |
| `Files::read` (Windows) | handle left open if `GetFileSizeEx` fails; short transfers are reported as success; null byte count without `OVERLAPPED` | C114_false |
| `Async::read`/`Async::write` (Windows) | completion at once is treated as failure; the result of the transfer is never asked for | C115_false |
| `Async::write` (Windows) | from 2 GiB up the file cannot be cut to its length and false is returned | C115_write_large |
| `Async::wait` (Windows) | from 2^63 / 10000 ms the due time is an absolute date or wraps around | C116_false |
| `Decay`, `Refl` | `Decay<const volatile T>` and `Refl<volatile T[N]>` are ambiguous | C118_false |
| `Record`, `Enum_Case`, `Record_Field` | `Record` holds of enumerations; the other two of nothing | C119_false |
| `Region_Allocator::alloc` | no alignment: after a block of one byte a block of eight is at an odd address; blocks of 16-aligned types are never aligned in chunks from malloc | C121_never_16, C121_aligned_false |
| `swap` | plain data swapped with itself is copied onto itself by memcpy, which is undefined; `shuffle` does so when it draws an element's own place | C124_self_plain, C124_shuffle_plain_partial |
| `Udp::recv` on Windows | a datagram longer than the packet (`WSAEMSGSIZE`) and every error are reported as if nothing had arrived, although the packet is overwritten; a loop that drains the socket stops early | C125_false |
| `Udp::send` on Windows | an error is only logged and 2^64 − 1 returned; lengths wrap at 32 bits | C125_send |
| `Net::Address` on POSIX | `inet_pton` gets the data pointer of a view that need not be terminated: the length is never used, the read may leave the block | C126_false |
| `Log::log`, `assert`, `die` | the message is formatted in a region; with 127 scopes open (or no memory for the text) reporting fails a check, whose report fails the same check: the thread overflows its stack and no message is printed | C127_depth, C127_no_memory |
| `Thread_Profile::finalize` | `frames = {}` runs without `frames_lock` and before the thread leaves the table: a thread that ends while another one iterates races with it | C128_false |
| `Profile::iterate_timings` | holds the lock of the table and of the frames during the callback: a callback that allocates from a recorded allocator, or traces, on a thread whose own frame is shown waits for itself | C128_callback_hangs |
| `Math::min`, `Math::max` of a list, `BBox::enclose` | a NaN makes them forget all earlier numbers or points: the least of 1, NaN, 5 is 5 | C129_list_false, C129_box_false |
| `Math::min` of a list | the least of infinity alone is the largest finite number | C129_list_false |
| `Math::clamp` | NaN gives the lower bound for numbers, the upper one for vectors | C129_clamp |
| `F32x4::min`, `F32x4::max` | with clang ignore a single NaN, unlike the other vectors | C129_simd |
| `Vect::operator-` | `Vec4` gives +0 for +0, the other vectors -0 | C129_neg |
| `Slice::sub` | `start + length` wraps around: `sub(2^64 - 1, 2)` passes the check and gives a slice outside of the array | C130_wrap, C130_false |
| `Ref::operator=` | `r = move(r)` makes `r` null | C130_refs_false |
| `Files::read`, `Files::write`, `Async::read`, `Async::write` | a path with a zero byte in it opens the file named by what is before that byte | C131_false, C131_windows_false |
| `utf8_to_ucs2` | names of more than 259 units cannot be opened | C131_windows_partial |
| `Log::output` | a message with a zero byte is shown only up to it | C132_truncated |
| `Log::output` | 64-bit lengths are passed for the `int` of `%.*s`: a message of 2^31 bytes is read beyond its end | C132_long |
| `Log::sys_error` (Windows) | one unit of the line end is cut off, not two: the carriage return stays | C133_return |
| `Log::sys_error`, `ucs2_to_utf8` (Windows) | converting a text that does not fit warns with the text of error 122; if that does not fit either, the recursion never ends | C133_recursion |
| `Profile::finalize` | `finalizers_lock` is held while finalizers run: one that registers another waits forever | C134_register |
| `Profile::finalize` | `allocs_lock` is held while the report is logged: a log callback that allocates waits forever | C134_callback |
| `Thread::set_priority` (Linux) | takes the bounds of the policy of fresh attributes, 0 and 0: all levels are the same, and a thread with a real-time policy ends the program | C135_linux_false |
| `Async::Pool` | ends the program on machines with more than 65 cores, and (Linux) if any core but the last is offline or outside of the cpuset | C135_pool_partial |
| `String::write` | copies with memcpy: writing a part of a string over itself is undefined, as is `x.write(0, x)` | C136_overlap, C136_false |
| `emplace` of Vec, Queue, Heap, Map | the arguments are used after `grow`: a reference to an element of the same container dangles whenever the container is full (the copying `push` and `insert` are fine; `Heap` has none) | C137_vec_false, C137_queue_false, C137_heap_false, C137_map_false |
| `Region_Allocator::Scope` in a coroutine | the scopes are kept per thread: a coroutine that suspends within a region fails a check when it is continued elsewhere, or silently gives back the memory of another coroutine that runs the same code | C138_other_thread_false, C138_other_region_false, C138_same_code_false |
| `Pool::enqueue` | reads the length of each queue without its mutex: a data race with the workers and other submitters (the code has a remark about it) | C139_false |
| `Map::Iterator` | erasing the current entry moves the next one into its slot: the loop misses it, or visits another one twice; after growing, the end of the loop is never met and it reads behind the table | C140_missed_false, C140_twice_false, C140_insert_false |
| `Typename` | a const pointer has the name of a pointer to const; dimensions of arrays of arrays are reversed; no name for arrays of const | C141_false |
| `F32x4` with MSVC and with clang | scalar products are rounded differently; min and max treat NaN differently | C142_false |
| `Lock::operator=(Lock&&)` | forgets the mutex the target holds without unlocking it, also in a self-assignment | C143_false |
| `Hash<Vect<f32, N>>` | vectors that compare equal, with zeros of different signs, have different hashes | C144_false |
| `Atomic::incr` and `decr` on POSIX | the result is computed by a signed addition, undefined at the ends of the range | C145_false |
| `RNG::Stream::coin_flip` | true in all states for every probability from 1e-16 on | C146_coin_false |
| `Math::radians`, `Math::degrees` for `f64` | factors computed in `f32`: relative error 8e-9 and 55e-9 | C147_double_false, C147_back_false |
| `Math::lerp` | `lerp(1e8f, 1, 1)` is 0; it can also end beyond the end | C148_false |
| `Math::smoothstep` | falls between neighbouring arguments, e.g. 13809329/2^24 and the next | C149_false |
| `Math::frac` | negative for negative arguments; undefined from 2^63 on | C150_false, C150_undefined |
| `Math::dot` | no relative accuracy: cancellation can lose the whole result | C151_false |
| `Profile::alloc`, `Log::output`, `iterate_timings` | callbacks run with mutexes held: one that allocates deadlocks with the warning about a double free, or with its own thread | C152_false |
| `Vect::unit`, `normalize` | a long vector becomes zero and a short one infinite or not a number | C153_long, C153_short |
| `Vec::extend`, `resize` | reserve exactly the length: extending step by step is quadratic | C154_false |
| `Rc` handles that form a cycle | the values are never destroyed | C155_leak, C155_false |
| Dropping the last handle to a long list of `Rc` | one nested call per value, without bound | C155_deep |
| `Vec::push`, `Opt::operator=` | `v.push(move(v[0]))` reads the freed block when the vector grows; `o = move(*o)` loses the value | C157_inside |
| `Event::of_sys` | given the same descriptor twice, the second close ends the program on Linux and Windows, and on macOS goes unnoticed or closes what another holds | C158_twice |
| `Vec`, `Heap`, `Queue` constructors and `reserve` | a request of 2^64 bytes or more gets a block of what is left over and reports the full capacity; `Vec::reserve` can drop its elements and keep its length; `Vec::extend` past 2^64 shortens | C159_ctor_exact, C159_reserve_exact, C159_extend_wraps |
| `detail::Pool<N>::Block` | `alignas(min(N, 16))` does not compile for sizes below 16 that are no power of two, such as three floats | C160_pool_exact |
| `Mallocator`, all containers | objects aligned to more than 16 bytes may be at unsuitable places | C160_elements_exact |
| `format` of f32 | six decimals: numbers below 16 are in general not read back by `parse_f32`, small ones become zero | C161_false, C161_lost |
| `RPP_FLT_EPSILON`, `RPP_DBL_EPSILON` | the comment says smallest such that 1.0+epsilon != 1.0, but half as much and a little more will do | C162_epsilon_exact, C162_comment |
| `v.yz() = v.xy()` and other assignments between overlapping views | the compiler's assignment operator copies overlapping memory; undefined | C163_false, C163_undefined |
| `Map::try_erase` of an absent key | an empty slot does not end the search: up to the whole table is read for one entry | C165_erase_false |
| `cross(v, v)` | not zero where the compiler fuses products and differences (AArch64) | C166_cross_fused |
| `format` of strings inside of values | strings are not quoted: vectors of one and of two strings give the same text | C168_false |
| `BBox::transform` | adds in another order than `operator*`: images of points can be outside of the box by a rounding | C169_transform_false |
| `BBox::center` | overflows for coordinates above half of the largest number | C169_center_false |
| `Write_Watcher` | holds a view of the path: it follows the text when it is overwritten, and reads freed memory when it is gone | C170_false, C170_gone |
| `Write_Watcher::poll` | a file replaced by an older one is not reported | C170_false |
| `Thread::id` on macOS | is not what `this_id` gives inside of the thread | C171_ids_false |
| `Thread::join` | threads that hold each other's `Thread` wait for each other without end | C171_stuck_false |
| `Log::output` | the clock is read before the lock is taken: lines can be out of order in time | C172_order_false |
| `Log::sys_time_string` | gives a view of a buffer of the thread: a callback that calls it changes the time written to the file | C172_file_false |
| `coroutine_handle::from_promise`, `promise` | wrong for promises of alignment above 16: the alignment passed to the compiler is 0 | C173_promise_off, C173_false |
| `for(auto& x : vec) vec.push(…)` | reads freed storage once the vector grows before the last turn | C174_vec_push, C174_vec_false |
| `for(auto& x : queue) queue.pop()` | skips every second element, then reads slots without an element | C174_queue_false |
| `wsa_error_code` | the text ends in a carriage return, and is in the code page of the user | C176_return, C176_false |
| `Log::sys_error` on macOS | an error number unknown to the library ends the process by an assertion | C177_mac_dies |
| `RNG::Stream::shuffle` | some orders of more than 20 elements are never the result | C178_missing_false |
| `BBox::project` | no division by w | C92_false |

## Trusted base

1. The Lean 4.33.0 kernel; Mathlib as installed (all its theorems are checked by the same kernel).
2. The axioms `propext`, `Classical.choice`, `Quot.sound`; per theorem below. No `sorry`, no own axioms,
   no `native_decide`/`bv_decide`. Concrete runs use `decide +kernel`, which is evaluated by the kernel.
3. The reading of the C++ text: that `Verif/Model` transcribes the cited lines.
4. The assumptions on the environment listed below.

### What is modelled, and what is left out

| Part of the code | Modelled | Left out or assumed |
|---|---|---|
| `math.h` integer functions | all of log2, ctlz, pow2, align, pow, min, max, clamp, abs, popcount | float functions |
| `hash.h`, `rng.h` | squirrel5, hash combination, literals, strings, floats by their bits; shuffle, range, unit | seeding from the clock; `swap` in shuffle taken to exchange values in C09, as written in C124 |
| `vec.h`, `stack.h` | every operation on storage cells | formatting (see C43) |
| `queue.h` | every operation on storage cells | forming a pointer before the buffer in `reserve` is not counted as undefined |
| `heap.h` | every operation on storage cells | the memcpy in pop is a move; a moved-from plain top stays readable |
| `map.h` | all lookups, insertion, erasure, growth, iteration, clone | `Model/Map` moves slots whole, `Model/MapMem` slot by slot in storage |
| `range_allocator.h` | allocate, free, statistics, destructor, moves | operations are atomic under the mutex, whose lifetime is modelled; block storage always available |
| `alloc.cpp` regions, `Free_List` | single thread: chunk stack, brands, begin/end; free list | contents of the memory; other threads have their own regions |
| `string0.h`, `string1.h` | views and owned strings on bytes | allocation succeeds |
| `format.h`, `format1.h` | Measure and Write of all value forms, format, concat, parse_* | templates become one tree type; libc printing and `strtoll` follow the standard; scratch regions |
| `rc.h` | Rc with a payload that has one inner handle; Arc with one block | allocation succeeds, block numbers are not reused, fewer than 2^63 handles |
| `opt.h`, `variant.h` | all members | trivially destructible/movable/copyable go together; allocation inside T succeeds |
| `thread.h`, `thread_pos.cpp`, `thread_w32.cpp` | Flag on all three systems, Promise, Thread handles, spawn, sleep | pthread and Windows primitives by their contract; affinity, priorities, hardware queries |
| `async.h` | Task state word, `then` | `flag.block` as a step enabled once the flag is set; the owner drops the task only when unused |
| `pool.h` | queues, workers, shutdown, event thread, placement | queue choice is nondeterministic; the unlocked `empty()` reads are racy in C++; jobs end; epoll works on valid descriptors |
| `profile.h/.cpp` | allocation statistics, timing tree, frame history | per-frame allocation records, locks, clock arbitrary |
| `log.cpp` | subscribe, unsubscribe, delivery, locking, the text of the line | log file, time text |
| `files.cpp`, `asyncio.cpp`, `net.cpp`, `thread_pos.cpp` events | system calls in order with all documented answers | paths opaque; descriptor numbers not reused; close succeeds; bind |
| `vmath.h`, `simd.cpp` | Vect operators, Mat4, Quat, BBox, clang code path | rounding; sqrt, sin, cos, atan2 are arguments; SIMD min/max choose like `Math::min/max` except in Float (C129), which has NaN, infinities and zeros |
| `alloc1.h` | Mpool with its mutex, pool names, Mallocator | alignment of the blocks of `detail::Pool` |
| `box.h`, `function.h` | all members | allocation succeeds, block numbers are not reused |
| `reflect.h`, `utility.h` | packs of types, type lists, Decay, Refl, Literal, swap, the Enum and Record concepts | compiler builtins; concepts that only ask whether an expression compiles |
| `tuple.h`, `pair.h`, `array.h` | construction, get, invoke, clone, indexing | all elements have one type of values |
| `slice.h`, `ref0.h`, `ref1.h` | all members | an address outside of the array stays outside; the array outlives the slice |
| `limits.h`, `storage.h`, `base.cpp` | not modelled, except where used above | |
| Windows and macOS sources | Flag, events, files, sockets, asynchronous files and timers | error texts, mutexes and condition variables by their contract |

## Wrong programs

`seeded/LOG.jsonl` records edits to model definitions made in a scratch copy of `lean/`, one per line.
For each edit the dependent modules were rebuilt. Every declaration whose proof failed was replaced
by `sorry`, until the build went through. `proofs_that_broke` lists those declarations,
`concrete_cases_that_broke` counts the failing `example`s, and `theorems_failed` lists the
theorems of `MANIFEST.json` that rest on a `sorry` at the end. `base` is the commit the edit was applied to.

How to read it:

* A proof that breaks shows only that the old proof does not apply. It does not show that the
  statement is false of the edited program. The control edits, which change the text of a definition
  but not its behaviour, make this visible: some of them break proofs too.
* A failing concrete case, or an entry in `refuted_on_the_wrong_program`, is stronger. The latter names
  a theorem from which Lean derived `False` in the edited project by a concrete run, so the
  statement itself rules the edit out.
* An edit that nothing noticed is kept in the log with outcome `not noticed`. `theorems_tightened` then names
  the theorems added or strengthened because of it, and the note says when the edit turned out not to change behaviour.
* Automatic edits were made by a script: one number, comparison, operator or outcome of a random definition is changed.
  The build stops at the first proof that breaks. All 45 that nothing noticed were looked at; the entry names the theorem
  tightened or says why the edit is harmless.

So far: 1153 edits, of which 29 controls, 829 noticed by the theorems of the claim they break, 15 others
and 280 automatic ones;
174 have a refutation of the statement on record.

## Axioms each theorem depends on

Printed by `#print axioms` for every theorem of `MANIFEST.json`; no theorem depends on anything else.

* **no axioms**: C04_pow_u16_false, C107_no_event, C117_list, C127_false, C129_box_false, C129_list_false, C135_linux_false, C142_lanes, C145_false, C159_false, C172_text_false, C35_valid_false, C67_send, C73_false, C81_false.
* **Quot.sound**: C04_pow_negative_hangs.
* **Classical.choice, Quot.sound, propext**: the other 469 theorems.
* **propext**: the other 72 theorems.
* **Quot.sound, propext**: the other 169 theorems.
