{
 "claims": [
  {
   "property": "C01",
   "status": "proved",
   "theorems": [
    "Verif.NanBox.isNum_iff_not_signallingNaN",
    "Verif.NanBox.isVal_iff_negative_signallingNaN",
    "Verif.NanBox.isVal_documented",
    "Verif.NanBox.isF64_documented",
    "Verif.NanBox.predicates_are_kinds",
    "Verif.NanBox.kind_unique",
    "Verif.NanBox.isVal_of_kind",
    "Verif.NanBox.isMd_isCallable",
    "Verif.NanBox.tag_roundtrip",
    "Verif.NanBox.tag_kind",
    "Verif.NanBox.char_roundtrip",
    "Verif.NanBox.q_c8_q_c16"
   ],
   "note": "all 2^64 words; the optimised tests equal the documented ones"
  },
  {
   "property": "C02",
   "status": "proved",
   "theorems": [
    "Verif.Utf8.decode_in_bounds",
    "Verif.Utf8.decode_ok_iff",
    "Verif.Utf8.decode_err_iff"
   ],
   "note": "checked reads and writes; success exactly on well-framed text"
  },
  {
   "property": "C03",
   "status": "proved",
   "theorems": [
    "Verif.Utf8.decode_encode",
    "Verif.Utf8.encode_length",
    "Verif.Utf8.encode_standard",
    "Verif.Utf8.decode_standard",
    "Verif.Utf8.encode_ascii"
   ],
   "note": "round trip for all codes below 2^21; bytes equal Lean's own UTF-8 encoder"
  },
  {
   "property": "C32",
   "status": "proved",
   "theorems": [
    "Verif.Gcd.gcd_u64_correct",
    "Verif.Gcd.lcm_u64_mod",
    "Verif.Gcd.lcm_u64_exact"
   ],
   "note": "all pairs of 64-bit naturals, including termination"
  },
  {
   "property": "C17",
   "status": "proved",
   "theorems": [
    "Verif.Scan.scan_bool_correct",
    "Verif.Scan.scan_bool_init_correct",
    "Verif.Scan.scan_ne_nonbit_correct",
    "Verif.Scan.scan_add_bool_correct",
    "Verif.Scan.scan_sub_bool_correct"
   ],
   "note": "all lengths, contents and padding bits, for ∨ ∧ ≠ = < ≤ > ≥ + -"
  },
  {
   "property": "C18",
   "status": "proved",
   "theorems": [
    "Verif.Fold.fold_bool_correct",
    "Verif.Fold.fold_bool_padding",
    "Verif.Fold.fold_bool_init_correct",
    "Verif.Fold.fold_bool_init_outcomes",
    "Verif.Fold.fold_sub_init_undefined"
   ],
   "note": "all primitives with a boolean path; one undefined negation found (𝕨 = -2^31, odd length), proved to be the only one"
  },
  {
   "property": "C37",
   "status": "proved",
   "theorems": [
    "Verif.Scan.scan_plus_correct",
    "Verif.Scan.scan_min_correct",
    "Verif.Scan.scan_max_correct",
    "Verif.Scan.scan_min_init_correct",
    "Verif.Scan.scan_max_init_correct",
    "Verif.Scan.scan_min_bit_init_correct",
    "Verif.Scan.scan_max_bit_init_correct"
   ],
   "note": "f64 addition is abstracted to any addition exact on integers up to 2^53"
  },
  {
   "property": "C15",
   "status": "proved",
   "theorems": [
    "Verif.BitCopy.bit_cpy_correct",
    "Verif.BitCopy.bit_cpy_writes",
    "Verif.BitCopy.bit_fill_correct",
    "Verif.BitCopy.bit_fill_writes"
   ],
   "note": "all offsets and lengths of non-overlapping ranges; bits outside the range unchanged, words written stay inside the range's words"
  },
  {
   "property": "C16",
   "status": "proved",
   "theorems": [
    "Verif.BitCopy.reverse_bits_correct",
    "Verif.BitCopy.reverse_bits_writes"
   ],
   "note": "all lengths and padding bits"
  },
  {
   "property": "C19",
   "status": "proved",
   "theorems": [
    "Verif.Sum.fold_add_correct",
    "Verif.Sum.fold_add_small",
    "Verif.Sum.fold_add_init_correct",
    "Verif.Sum.usum_correct"
   ],
   "note": "f64 addition is any addition exact on representable results"
  },
  {
   "property": "C38",
   "status": "partial",
   "theorems": [
    "Verif.Sum.math_sum_correct_partial",
    "Verif.Sum.math_sum_offset_wraps",
    "Verif.Sum.math_sum_never_returns"
   ],
   "note": "exact for lists of at most 2^32 bytes and 2^32-2^16 elements; outside of that the code is wrong, which is proved"
  },
  {
   "property": "C39",
   "status": "proved",
   "theorems": [
    "Verif.Sum.fold_mul_correct",
    "Verif.Sum.fold_min_correct",
    "Verif.Sum.fold_max_correct",
    "Verif.Sum.fold_or_correct",
    "Verif.Sum.fold_or_answers"
   ],
   "note": "f64 multiplication is any multiplication exact on representable results"
  },
  {
   "property": "C13",
   "status": "proved",
   "theorems": [
    "Verif.Arith.arith_arrays_correct",
    "Verif.Arith.arith_scalar_correct",
    "Verif.Arith.arith_exact"
   ],
   "note": "+ - × ∧ ∨ ⌊ ⌈ on all pairs of numeric element types, arrays of equal shape or a scalar; double arithmetic is abstract"
  },
  {
   "property": "C14",
   "status": "partial",
   "theorems": [
    "Verif.Arith.Pow2.mod_pow2_correct_partial",
    "Verif.Arith.Pow2.mod_pow2_uninitialised"
   ],
   "note": "proved for arrays below 2^30 elements; beyond 2^32 bytes the code leaves the result uninitialised, which is proved"
  },
  {
   "property": "C40",
   "status": "partial",
   "theorems": [
    "Verif.Arith.chr_add_correct",
    "Verif.Arith.chr_sub_correct",
    "Verif.Arith.chr_add_scalar_correct",
    "Verif.Arith.chr_sub_scalar_correct",
    "Verif.Arith.chr_diff_correct",
    "Verif.Arith.chr_add_undefined",
    "Verif.Arith.chr_add_scalar_undefined"
   ],
   "note": "exact whenever no signed overflow occurs; the overflowing inputs are exhibited"
  },
  {
   "property": "C07",
   "status": "proved",
   "theorems": [
    "Verif.Buddy.live_disjoint",
    "Verif.Buddy.alloc_progress",
    "Verif.Buddy.alloc_fails_only"
   ],
   "note": "all histories of allocations, frees, collector discards and merges; the system is assumed to return ranges disjoint from earlier ones"
  },
  {
   "property": "C08",
   "status": "proved",
   "theorems": [
    "Verif.Buddy.merge_completes",
    "Verif.Buddy.memory_partition",
    "Verif.Buddy.memory_accounted",
    "Verif.Buddy.forHeap_visits",
    "Verif.Buddy.merge_keeps"
   ],
   "note": "reachable states of the same histories"
  },
  {
   "property": "C04",
   "status": "proved",
   "theorems": [
    "Verif.HTab.table_is_map",
    "Verif.HTab.small_table_hangs",
    "Verif.HTab.interning"
   ],
   "note": "any non-zero hash function; keys are identified up to the program's equality"
  },
  {
   "property": "C30",
   "status": "proved",
   "theorems": [
    "Verif.Search.index_of_correct",
    "Verif.Search.index_of_unit_correct",
    "Verif.Search.index_of_long_wrong",
    "Verif.Search.member_of_correct",
    "Verif.Search.member_of_unit_correct",
    "Verif.Search.progressive_index_correct",
    "Verif.HTab.indexOf_hash_eq",
    "Verif.HTab.memberOf_hash_eq",
    "Verif.HTab.progIndexOf_hash_eq"
   ],
   "note": "rank-1 arguments, every path of the generic build; index results for fewer than 2^31 elements in the searched list, with a witness that the limit is needed; the multi-rank cell searches run in BQN runtime code and are not modelled"
  },
  {
   "property": "C31",
   "status": "proved",
   "theorems": [
    "Verif.SelfSearch.mark_firsts_correct",
    "Verif.SelfSearch.occurrence_count_correct",
    "Verif.SelfSearch.occurrence_count_limit",
    "Verif.SelfSearch.classify_correct",
    "Verif.SelfSearch.classify_limit_wrong",
    "Verif.SelfSearch.deduplicate_correct",
    "Verif.SelfSearch.mark_layout",
    "Verif.SelfSearch.count_layout",
    "Verif.SelfSearch.mark_firsts_overflows",
    "Verif.SelfSearch.mark_fits_limit",
    "Verif.HTab.markFirsts_hash_eq",
    "Verif.HTab.occurrence_hash_eq",
    "Verif.HTab.classify_hash_eq"
   ],
   "note": "every path of the generic build; 32-bit cells up to 715827882 of them for ∊ ⊒ ⍷, with a witness that the code's buffer size wraps beyond that, and ⊐ below 2^31 cells, with a witness that 2^31 is answered wrongly; NaN excluded"
  },
  {
   "property": "C05",
   "status": "proved",
   "theorems": [
    "Verif.HashMap.hashmap_correct",
    "Verif.HashMap.hashmap_small",
    "Verif.HashMap.hashmap_duplicates",
    "Verif.HashMap.hashmap_safe"
   ],
   "note": "every history up to the program's own error that the hash table cannot grow, which is shown to be given only when hashes are crowded at the top; fewer than 2^31 initial keys"
  },
  {
   "property": "C06",
   "status": "proved",
   "theorems": [
    "Verif.HashMap.hashmap_safe",
    "Verif.HashMap.hashmap_broken_after_error"
   ],
   "note": "every history up to the first error about the size of the map, with a witness that the map is unusable after that error"
  },
  {
   "property": "C20",
   "status": "proved",
   "theorems": [
    "Verif.Compare.compare_defined",
    "Verif.Compare.compare_antisymm",
    "Verif.Compare.compare_trans",
    "Verif.Compare.compare_zero",
    "Verif.Compare.compare_refl",
    "Verif.Compare.compare_numbers",
    "Verif.Compare.compare_characters",
    "Verif.Compare.compare_number_character",
    "Verif.Compare.compare_atom",
    "Verif.Compare.compare_lists_differ",
    "Verif.Compare.compare_lists_prefix"
   ],
   "note": "numbers, characters and arrays; the numeric order of doubles is given by their bits; functions and namespaces, which give an error, are not included"
  },
  {
   "property": "C21",
   "status": "proved",
   "theorems": [
    "Verif.Sort.sort_booleans",
    "Verif.Sort.sort_integers",
    "Verif.Sort.sort_integers_perm",
    "Verif.Sort.sort_integers_overflow",
    "Verif.Sort.sort_values",
    "Verif.Sort.grade_booleans",
    "Verif.Sort.grade_integers",
    "Verif.Sort.grade_characters",
    "Verif.Sort.grade_values",
    "Verif.Sort.grade_too_large",
    "Verif.Sort.sort_selects_by_grade",
    "Verif.Sort.sort_unique",
    "Verif.Sort.grade_unique"
   ],
   "note": "lists (rank 1), all element types and every path of the build without Singeli: insertion, counting, radix, bit, bucket and permutation sorts, and Timsort; sort_integers_overflow is the witness that sorting 2^30 or more 32-bit integers writes outside of its buffer"
  },
  {
   "property": "C22",
   "status": "proved",
   "theorems": [
    "Verif.Bins.bins_counts",
    "Verif.Bins.bins_unsorted",
    "Verif.Bins.bins_too_big",
    "Verif.Bins.bin_insert"
   ],
   "note": "every element type of both arguments, both directions, including the sortedness check; 𝕨 of at most 2^31-11 elements, more is an error; the build without Singeli"
  },
  {
   "property": "C09",
   "status": "proved",
   "theorems": [
    "Verif.Gc.gc_keeps",
    "Verif.Gc.heap_history",
    "Verif.Gc.heap_after_gc",
    "Verif.Gc.many_blocks_freed"
   ],
   "note": "for every heap whose reference counts are exact, which every history of allocations, references taken, given up and stored, and collections keeps; objects are what visit and free do with them; many_blocks_freed is the witness that it fails for a body with 65536 blocks, whose list is visited with a 16-bit count"
  },
  {
   "property": "C10",
   "status": "proved",
   "theorems": [
    "Verif.Gc.gc_frees",
    "Verif.Gc.heap_after_gc"
   ],
   "note": "every heap whose reference counts are exact, collection at top level or not"
  },
  {
   "property": "C11",
   "status": "partial",
   "theorems": [
    "Verif.Squeeze.squeeze_any_partial",
    "Verif.Squeeze.squeeze_num_new",
    "Verif.Squeeze.squeeze_chr_new",
    "Verif.Squeeze.squeeze_num_try_partial",
    "Verif.Squeeze.squeeze_chr_try_partial",
    "Verif.Squeeze.squeeze_chr_try_empty"
   ],
   "note": "squeeze_any, squeeze_numNew/chrNew/numTry/chrTry without Singeli, with the flags fl_squoze, fl_asc, fl_dsc; proved for every conversion result that C leaves undefined. Partial: the functions that trust flags need truthful flags, which appending keeps except for empty arrays (Verif.Append.flags_history_partial, stale_squeezed_flag)."
  },
  {
   "property": "C12",
   "status": "proved",
   "theorems": [
    "Verif.Append.el_or_least",
    "Verif.Append.storable_holds",
    "Verif.Append.append_history",
    "Verif.Append.order_flags_history",
    "Verif.Append.flags_history_partial",
    "Verif.Append.stale_squeezed_flag",
    "Verif.Append.append_writes_past_end",
    "Verif.Append.join_loses_elements",
    "Verif.Append.join_writes_past_end"
   ],
   "note": "vec_add, inplace_add and arr_join_inline with fillslice_getJoin in every history of sharing, slicing, dropping and squeezing; the last three are witnesses that joining and appending go wrong when the result has 2^32 elements or more, stale_squeezed_flag that an empty array's squeezed flag outlives appending"
  },
  {
   "property": "C23",
   "status": "proved",
   "theorems": [
    "Verif.Slash.where_positions",
    "Verif.Slash.compress_keeps",
    "Verif.Slash.compress_keeps_cells",
    "Verif.Slash.compress_keeps_bits",
    "Verif.Slash.compress_keeps_bit_cells"
   ],
   "note": "Indices of a boolean list and replicate by a boolean list for every length below 2^32, every kind of cell and whatever fresh memory holds; the generic C paths (Singeli disabled), including the copies in blocks, groups and one by one. A read or write outside of memory would make the result none."
  },
  {
   "property": "C24",
   "status": "partial",
   "theorems": [
    "Verif.Rep.indices_counts",
    "Verif.Rep.replicate_empty",
    "Verif.Rep.replicate_elements",
    "Verif.Rep.replicate_cells",
    "Verif.Rep.replicate_bits",
    "Verif.Rep.replicate_bit_cells",
    "Verif.Rep.replicate_all_elements",
    "Verif.Rep.replicate_all_cells",
    "Verif.Rep.replicate_all_bits",
    "Verif.Rep.replicate_all_bit_cells",
    "Verif.Rep.indices_inverse_counts",
    "Verif.Rep.indices_inverse_rejects",
    "Verif.Rep.indices_inverse_safe",
    "Verif.Rep.indices_inverse_round_trip",
    "Verif.Rep.replicate_all_writes_outside",
    "Verif.Rep.replicate_writes_outside",
    "Verif.Rep.replicate_length_wraps"
   ],
   "note": "Full for lists of every type and length; for cells of several elements it holds only while the result has less than 2^32 elements: beyond that the code is shown to write outside of memory (replicate_all_writes_outside, replicate_writes_outside) or to store a wrapped length. The inverse is exact for results within the limits of the implementation; the round trip assumes a sum of at most 2^31-1."
  },
  {
   "property": "C25",
   "status": "partial",
   "theorems": [
    "Verif.Select.select_elements",
    "Verif.Select.select_cells",
    "Verif.Select.select_bits",
    "Verif.Select.select_empty_cells_unchecked",
    "Verif.Select.select_large_cells_uninitialised",
    "Verif.Select.select_writes_outside",
    "Verif.Widen.select_bit_cells",
    "Verif.Widen.select_widened_writes_outside"
   ],
   "note": "Every type of index and of selected array with depth-1 indices. Results must have fewer than 2^32 elements and cells fewer than 2^32 bits: the negations are proved, and so is that empty cells are not checked."
  },
  {
   "property": "C26",
   "status": "partial",
   "theorems": [
    "Verif.Under.under_select_elements",
    "Verif.Under.under_select_bits",
    "Verif.Under.under_select_bit_cells",
    "Verif.Under.under_select_object_cells",
    "Verif.Under.under_select_cells_partial",
    "Verif.Under.under_select_each",
    "Verif.Under.under_select_each_bits",
    "Verif.Under.under_select_wrong_accept",
    "Verif.Under.under_select_wrong_reject",
    "Verif.Under.under_select_empty_cells_fatal"
   ],
   "note": "select_ucw and select_replace for lists of indices and every kind of cell. Partial because cells of 256 bytes or more break it in the code: the last three theorems show that different cells at one position are accepted, that equal cells are rejected and that empty cells end the program."
  },
  {
   "property": "C27",
   "status": "proved",
   "theorems": [
    "Verif.Rotate.rotate_number",
    "Verif.Rotate.rotate_list",
    "Verif.Rotate.rotate_number_bits",
    "Verif.Rotate.rotate_number_rejects",
    "Verif.Rotate.rotate_axes",
    "Verif.Rotate.rotate_axes_bits",
    "Verif.Rotate.rotate_axes_rejects",
    "Verif.Rotate.rotate_round_trip",
    "Verif.Rotate.rotate_round_trip_bits",
    "Verif.Rotate.rotate_no_way_back"
   ],
   "note": "reverse_c2, rotate_highrank and reverse_ix for every shape and every kind of element, along one or several axes; amounts are all integers that o2i64 accepts. rotate_no_way_back: the single amount -2^63 is accepted by Rotate but not by its inverse."
  },
  {
   "property": "C28",
   "status": "proved",
   "theorems": [
    "Verif.Transpose.transpose_index",
    "Verif.Transpose.transpose_list",
    "Verif.Transpose.transpose_inverse_index",
    "Verif.Transpose.transpose_round_trip",
    "Verif.Transpose.transpose_round_trip_elems"
   ],
   "note": "transp_c1, transp_im, transpose_noshape, the blocked loops, the generic loop and the interleaving of two rows of bits, for every shape. Reorder axes (transp_c2) is C48."
  },
  {
   "property": "C29",
   "status": "proved",
   "theorems": [
    "Verif.Group.group_cells",
    "Verif.Group.group_bit_cells",
    "Verif.Group.group_list",
    "Verif.Group.group_rejects_negative",
    "Verif.Group.group_rejects_length",
    "Verif.Group.group_writes_outside"
   ],
   "note": "group_simple for integer lists and arrays of any rank and type, every path: whole, boolean, chunks, filtered, sorted, CPU-sized, single bits and objects; below 4 GiB, with the witness group_writes_outside that larger buckets are written outside of their memory. Indices that aren't small integers or not a list go to BQN runtime code and are not modelled."
  },
  {
   "property": "C33",
   "status": "proved",
   "theorems": [
    "Verif.Rand.deal_permutation",
    "Verif.Rand.deal_distinct",
    "Verif.Rand.deal_refuses",
    "Verif.Rand.deal_copy_undefined",
    "Verif.Rand.subset_increasing",
    "Verif.Rand.subset_refuses"
   ],
   "note": "For every sequence of random words. Deal of 2⋆29 or more numbers out of at most 64 times as many overflows an int in the size of a memcpy (sysfn.c 546), shown by deal_copy_undefined; deal_distinct excludes it. filter_ne_i32 is modelled as a filter (its parts are those of C23)."
  },
  {
   "property": "C41",
   "status": "partial",
   "theorems": [
    "Verif.Rand.range_below",
    "Verif.Rand.range_writes_outside",
    "Verif.Rand.range_one_below",
    "Verif.Rand.range_one_reaches"
   ],
   "note": "Proved for results of fewer than 2⋆32 bytes. Violated beyond: the size in bytes is computed with 32 bits (sysfn.c 393-395), so larger results are written outside of their memory; monadic Range above 2⋆53 can return 𝕩 itself. 𝕩=0 (floats) is not modelled."
  },
  {
   "property": "C34",
   "status": "partial",
   "theorems": [
    "Verif.Vm.stack_discipline_partial",
    "Verif.Vm.predicate_exceeds_reserved",
    "Verif.Vm.namespace_exceeds_reserved",
    "Verif.Vm.check_below_base",
    "Verif.Vm.list_count_negative",
    "Verif.Vm.unknown_instruction_accepted",
    "Verif.Vm.compile_reads_past_end"
   ],
   "note": "compileBlock's loop over a body and evalBC's use of the stack, for every accepted body of the instructions that BQN compilers use. Violated in the other theorems: a body with a predicate holds two values while copying its arguments though one may be reserved ({𝕩?1;2}); an empty namespace body pushes with nothing reserved; CHKV on an empty stack, counts from 2⋆31 and instructions that the interpreter lacks are accepted from •BQN-supplied bytecode."
  },
  {
   "property": "C35",
   "status": "proved",
   "theorems": [
    "Verif.Vm.Catch.catch_restores",
    "Verif.Vm.Catch.run_balanced",
    "Verif.Vm.Catch.catch_stops_errors",
    "Verif.Vm.Catch.stack_values_freed_once"
   ],
   "note": "prepareCatch, popCatch, throwImpl, unwindEnv, pushEnv/popEnv, gsAdd/gsPop and ⎊, for every nesting of calls, catches, handlers and errors, with growth of the array of frames and errors from full stacks."
  },
  {
   "property": "C36",
   "status": "partial",
   "theorems": [
    "Verif.Sizes.reshape_exact_partial",
    "Verif.Sizes.range_exact",
    "Verif.Sizes.windows_exact",
    "Verif.Sizes.table_exact",
    "Verif.Sizes.merge_exact",
    "Verif.Sizes.take_exact_partial",
    "Verif.Sizes.drop_exact",
    "Verif.Sizes.takedrop_exact_partial",
    "Verif.Sizes.couple_exact_partial",
    "Verif.Sizes.join_list_exact_partial",
    "Verif.Sizes.join_array_exact_partial",
    "Verif.Sizes.reshape_floor_wraps",
    "Verif.Sizes.take_empty_wraps",
    "Verif.Sizes.take_axis_wraps",
    "Verif.Sizes.couple_wraps",
    "Verif.Sizes.join_list_wraps",
    "Verif.Sizes.join_many_wraps",
    "Verif.Sizes.join_rank_wraps",
    "Verif.Sizes.join_array_wraps"
   ],
   "note": "For each primitive: when a result is made, its shape is the one BQN defines and the count of elements is the exact product. Proved without limits for ranges, windows, tables, merge and drop; for reshape, take, couple and join the code is wrong for the inputs in the *_wraps theorems (wrapped counts are used for allocation) and the _partial theorems exclude exactly these. Wrapped counts in select, replicate and group are in C24, C25 and C29."
  },
  {
   "property": "C42",
   "status": "proved",
   "theorems": [
    "Verif.Reshape.cycleBits_spec",
    "Verif.Reshape.cycleTyped_spec",
    "Verif.Reshape.cycleItems_spec",
    "Verif.Reshape.reshapeOne_spec"
   ],
   "note": "reshape_cycle for booleans, for elements of 1 to 8 bytes and for other values, and reshape_one for numbers and characters. Results with no more elements than the argument are a slice (take_head), not modelled. squeeze_any on the argument is C11; the count of elements is C36."
  },
  {
   "property": "C43",
   "status": "proved",
   "theorems": [
    "Verif.Take.takedrop_elems",
    "Verif.Take.takedrop_bits",
    "Verif.Take.take_list",
    "Verif.Take.drop_list",
    "Verif.Take.sources_in",
    "Verif.Take.fillBits_word_after"
   ],
   "note": "take_c2, drop_c2 and takedrop_highrank with all their cases, over m_copyG and m_fillG, for elements and for packed booleans. Sizes are exact (C36); slices are modelled as copies. m_fillG on bits up to a multiple of 64 reads and rewrites, unchanged, the word after the array: proved with a word of memory there, and fillBits_word_after shows that it's needed."
  },
  {
   "property": "C44",
   "status": "proved",
   "theorems": [
    "Verif.Widen.widen_narrow",
    "Verif.Widen.widen_cells",
    "Verif.Widen.cells_as_numbers",
    "Verif.Widen.select_bit_cells",
    "Verif.Widen.widen_writes_outside",
    "Verif.Widen.select_widened_writes_outside",
    "Verif.Widen.search_wraps"
   ],
   "note": "The generic C paths (no PDEP) of bitwiden and bitnarrow for every cell size, widenBitArr, narrowWidenedBitArr, toIntCell, the choice made by splitCells and Select on widened cells. Padded arrays must have at most 2^32-66 bits and cells fewer than 2^32: beyond that the 32-bit products wrap, and the *_outside and search_wraps theorems show what happens then."
  },
  {
   "property": "C45",
   "status": "proved",
   "theorems": [
    "Verif.Match.match_exact",
    "Verif.Match.ematch_exact",
    "Verif.Match.typed_exact"
   ],
   "note": "equal and eequal with all 64 entries of the tables of typed comparisons (generic C loops, on words for bits and on bytes for equal integer types), nested to any depth. Slices are modelled as arrays."
  },
  {
   "property": "C46",
   "status": "partial",
   "theorems": [
    "Verif.Match.match_same_hash",
    "Verif.Match.wyhash_bytes",
    "Verif.Match.stale_flag_hash"
   ],
   "note": "bqn_hash, bqn_hashObj and wyhash with arbitrary memory past the key, for all heaps whose flags are true. Partial because the flags are not always true: stale_flag_hash gives two matching lists with different hashes, built from the history of Append.stale_squeezed_flag."
  },
  {
   "property": "C47",
   "status": "proved",
   "theorems": [
    "Verif.Shift.shift_fill_elems",
    "Verif.Shift.shift_fill_bits",
    "Verif.Shift.shift_elems",
    "Verif.Shift.shift_bits",
    "Verif.Shift.shift_refused",
    "Verif.Shift.shift_lists",
    "Verif.Shift.reverse_bytes",
    "Verif.Shift.reverse_bools"
   ],
   "note": "shift_check, shiftb_c1/c2, shifta_c1/c2 and reverse_c1 with all their paths, for elements and packed booleans. Array of fills by reshape_one is C42; the type of the result is C12."
  },
  {
   "property": "C48",
   "status": "proved",
   "theorems": [
    "Verif.Reorder.reorder_elems",
    "Verif.Reorder.reorder_bools",
    "Verif.Reorder.reorder_refused",
    "Verif.Reorder.source_injective",
    "Verif.Reorder.source_surjective",
    "Verif.Reorder.reorder_dup_missed"
   ],
   "note": "transp_c2 for lists 𝕨 of natural numbers: the shape, the strides, the merging of axes, the loop over cells, the strided transposes and the selection, for arrays of every rank with axes of fewer than 2⋆32-1 elements (reorder_dup_missed is what happens at that length). The selection is modelled as one copy per cell (C25). The atom 𝕨 for the last axis is ⍉𝕩 (C28). Reference counts, fills and the types of numbers in 𝕨 are not modelled; Singeli is disabled."
  },
  {
   "property": "C49",
   "status": "partial",
   "theorems": [
    "Verif.BitFn.cast_bits_partial",
    "Verif.BitFn.cast_back_partial",
    "Verif.BitFn.cast_refused",
    "Verif.BitFn.cast_count_wraps",
    "Verif.BitFn.cast_boxed_chars"
   ],
   "note": "bitcast_impl for every pair of types, with and without reuse of the argument and of its shape. Partial because the code fails for results of 2⋆32 elements or more (cast_count_wraps) and for characters in a generic array when 𝕗 gives a width only (cast_boxed_chars). That the elements can be written in the given width is a hypothesis: the code does not check it. Bit patterns of signalling NaNs seen as doubles are undefined by the documentation and kept here as bits."
  },
  {
   "property": "C50",
   "status": "partial",
   "theorems": [
    "Verif.BitFn.one_pieces_partial",
    "Verif.BitFn.one_refused",
    "Verif.BitFn.bits_not_allocated",
    "Verif.BitFn.two_same_partial",
    "Verif.BitFn.two_left_partial",
    "Verif.BitFn.two_right_partial",
    "Verif.BitFn.two_refused",
    "Verif.BitFn.two_not_allocated",
    "Verif.BitFn.mul_undefined"
   ],
   "note": "bitop1 and bitop2 for all functions, widths and ways to pair the arguments, over memory as 64-bit words. Partial because the number of bits is kept in 32 bits (bits_not_allocated, two_not_allocated: no memory for the result of 2⋆26 doubles) and because 32- and 64-bit products are signed (mul_undefined)."
  },
  {
   "property": "C51",
   "status": "proved",
   "theorems": [
    "Verif.Pervade.compare_every_pair",
    "Verif.Pervade.compare_one_result",
    "Verif.Pervade.compare_exchange",
    "Verif.Pervade.characters_signed"
   ],
   "note": "cmp.c without Singeli (all tables, the conversion to a common type, scalars, the slow loop), leading_axis_arith and the recursion through eachd_fn, over memory as 64-bit words, for typed arrays of fewer than 2⋆32 elements and character codes below 2⋆31 (characters_signed is what happens from there on). Repetition and slices in leading_axis_arith are modelled by their results (C23, C24). Squeezing of results is C12; fills and reuse of arguments are not modelled."
  },
  {
   "property": "C52",
   "status": "proved",
   "theorems": [
    "Verif.Pervade.each_in_order",
    "Verif.Pervade.cell_index"
   ],
   "note": "eachd_fn for every lawful monad of effects. The fill of the result and the type in which it is stored (C12) are not modelled."
  },
  {
   "property": "C53",
   "status": "proved",
   "theorems": [
    "Verif.Merge.merge_same",
    "Verif.Merge.merge_only",
    "Verif.Merge.merge_differ",
    "Verif.Merge.merge_rank",
    "Verif.Merge.merge_fill",
    "Verif.Merge.merge_empty",
    "Verif.Merge.appended_in_order"
   ],
   "note": "bqn_merge and the whole of ApdMut: all append functions, changes of the element type, fills, the single append, and errors given at the end. Results of more than 4294967230 elements may be out-of-memory errors. For empty elements the code keeps the fill of the first one and nothing is claimed; neither is it for the fill when 𝕩 has arrays without axes among its elements."
  },
  {
   "property": "C54",
   "status": "partial",
   "theorems": [
    "Verif.Cells.rank_monadic_partial",
    "Verif.Cells.rank_dyadic_partial",
    "Verif.Cells.cells_monadic_partial",
    "Verif.Cells.cells_dyadic_partial",
    "Verif.Cells.cell_index",
    "Verif.Cells.pair_index",
    "Verif.Cells.merge_index",
    "Verif.Cells.wrapped_to_none",
    "Verif.Cells.wrapped_to_two"
   ],
   "note": "cells.c without the functions that are recognised, for every lawful monad of effects. Partial because the number of cells of an empty array wraps (wrapped_to_none, wrapped_to_two): arguments must have fewer than 2⋆32 cells at every rank, which all arrays with elements do. How results are put together is C53."
  },
  {
   "property": "C55",
   "status": "partial",
   "theorems": [
    "Verif.Insert.fold_calls",
    "Verif.Insert.fold_init_calls",
    "Verif.Insert.fold_value",
    "Verif.Insert.insert_calls_partial",
    "Verif.Insert.insert_init_calls",
    "Verif.Insert.fits_nonempty",
    "Verif.Insert.scan_calls",
    "Verif.Insert.scan_init_calls",
    "Verif.Insert.scan_value",
    "Verif.Insert.identity_without_elements",
    "Verif.Insert.identity_of_one_element",
    "Verif.Insert.join_wraps"
   ],
   "note": "fold.c, scan.c and cells.c without the functions for typed numbers (C17, C18, C19, C37, C39), for every lawful monad of effects. Partial because insert of an empty array with large cells makes a malformed array (identity_without_elements, identity_of_one_element, join_wraps); all arrays with elements are within the limits (fits_nonempty)."
  },
  {
   "property": "C56",
   "status": "partial",
   "theorems": [
    "Verif.Known.known_one_partial",
    "Verif.Known.known_left_partial",
    "Verif.Known.known_right_partial",
    "Verif.Known.known_both_partial",
    "Verif.Known.shape_rank",
    "Verif.Known.join_keeps_axis",
    "Verif.Known.identity_boxed",
    "Verif.Known.identity_missing",
    "Verif.Known.identity_wraps",
    "Verif.Known.shape_wraps",
    "Verif.Known.couple_wraps",
    "Verif.Known.couple_rank",
    "Verif.Known.shift_again"
   ],
   "note": "the recognised functions of cells.c with select_cells_single, insert_cells_join, insert_cells_identity and join_cells. Partial because of the violations, each with a theorem, and because transpose, nested Cells, take, drop, rotate, index arrays, and arithmetic on rows aren't modelled as recognised."
  },
  {
   "property": "C57",
   "status": "partial",
   "theorems": [
    "Verif.Join.join_fits_partial",
    "Verif.Join.join_unfit_partial",
    "Verif.Join.join_large_partial",
    "Verif.Join.joined_unique",
    "Verif.Join.overlap_refuses",
    "Verif.Join.overlap_accepts",
    "Verif.Join.list_rank_255",
    "Verif.Join.join_wraps"
   ],
   "note": "join_c1 for arrays with elements, without fills. Partial because of the violations: the test shape copied over itself (overlap_refuses, overlap_accepts) and rank 255 (list_rank_255), and the number of elements computed modulo 2^32 (join_wraps); proved for all arrays where the copy doesn't matter. Empty arrays and fills aren't modelled."
  },
  {
   "property": "C58",
   "status": "partial",
   "theorems": [
    "Verif.Table.table_in_order",
    "Verif.Table.table_index",
    "Verif.Table.each_one_in_order",
    "Verif.Table.each_keeps_operand_partial",
    "Verif.Table.table_loses_operand"
   ],
   "note": "tbl_c2, each_c1 and eachm_fn with operands that may have any effects. Partial because Table takes over a reference to an operand that is an array without counting it (table_loses_operand). Fills and storage types aren't modelled; Each with two arguments is C52."
  },
  {
   "property": "C59",
   "status": "proved",
   "theorems": [
    "Verif.Repeat.repeat_calls",
    "Verif.Repeat.repeat_values",
    "Verif.Repeat.repeat_refuses",
    "Verif.Repeat.while_stops",
    "Verif.Repeat.while_goes_on",
    "Verif.Repeat.while_refuses"
   ],
   "note": "REPEAT_T with repeat_bounds, repeat_replace and the range functions, and while_c1, for operands with any effects. Reference counts, squeezing and the size of temporary memory aren't modelled."
  },
  {
   "property": "C60",
   "status": "proved",
   "theorems": [
    "Verif.Pick.pick_gives",
    "Verif.Pick.pick_refuses",
    "Verif.Pick.pick_first",
    "Verif.Pick.choose_calls",
    "Verif.Pick.pick_empty_depends"
   ],
   "note": "pick_c1, pick_c2 with recPick and WRAP, and cond_c1/cond_c2. Empty arrays in the index are taken to be lists; with other ranks the result depends on how they are stored (pick_empty_depends). Error messages, squeezing and reference counts aren't modelled."
  },
  {
   "property": "C61",
   "status": "proved",
   "theorems": [
    "Verif.File.lines_exist",
    "Verif.File.lines_read",
    "Verif.File.lines_invalid",
    "Verif.File.lines_of_text",
    "Verif.File.lines_round_trip",
    "Verif.File.chars_round_trip",
    "Verif.File.bytes_round_trip",
    "Verif.File.bytes_copy",
    "Verif.File.bytes_truncated",
    "Verif.File.at_absolute",
    "Verif.File.at_nowhere",
    "Verif.File.at_relative",
    "Verif.File.at_empty_base",
    "Verif.File.name_last",
    "Verif.File.name_whole",
    "Verif.File.parent_of",
    "Verif.File.parent_here",
    "Verif.File.at_parent_name"
   ],
   "note": "Files are lists of fewer than 2^32 bytes; the operating system isn't modelled. Codes below 2^21. bytes_truncated: a character that isn't a byte is written as another one."
  },
  {
   "property": "C62",
   "status": "partial",
   "theorems": [
    "Verif.Assign.assign_binds",
    "Verif.Assign.assign_fails",
    "Verif.Assign.assign_only",
    "Verif.Assign.assign_wf",
    "Verif.Assign.header_binds",
    "Verif.Assign.modify_calls",
    "Verif.Assign.modify_error",
    "Verif.Assign.modify_needs",
    "Verif.Assign.modify_assign",
    "Verif.Assign.modify_same",
    "Verif.Assign.read_var",
    "Verif.Assign.read_field",
    "Verif.Assign.field_leaks",
    "Verif.Assign.merge_in_fields",
    "Verif.Assign.merge_encloses"
   ],
   "note": "Violated: a field of a namespace whose value was taken by F↩ that failed or still runs is read as a mark instead of being an error (field_leaks); […] as an element of ⟨…⟩ that is assigned a namespace is undefined (merge_in_fields, excluded by T.flat in assign_fails). The rest is proved. Reference counts aren't modelled, and the compiler that makes targets isn't either."
  },
  {
   "property": "C63",
   "status": "partial",
   "theorems": [
    "Verif.Lens.under_replaces",
    "Verif.Lens.under_rejects",
    "Verif.Lens.under_dyadic",
    "Verif.Lens.replaced_unique",
    "Verif.Lens.under_calls_left",
    "Verif.Lens.under_pick_empty",
    "Verif.Lens.under_atop_swapped"
   ],
   "note": "Violated: with 𝕨, if 𝔾𝕨 is a function it's called instead of passed (under_calls_left); an empty list as 𝕨 of ⊑ is no error for arrays with axes (under_pick_empty); g∘h with an operand that isn't a function runs g⌾(h∘𝔽) (under_atop_swapped). The rest is proved for the cases that the C code handles itself (Native); the others are left to the definition of Under written in BQN, which isn't modelled. Fills aren't modelled."
  },
  {
   "property": "C64",
   "status": "partial",
   "theorems": [
    "Verif.Bodies.body_selected",
    "Verif.Bodies.body_selected_at_once_partial",
    "Verif.Bodies.no_match_reads_past",
    "Verif.Bodies.copies_wrap",
    "Verif.Bodies.unsorted_refused"
   ],
   "note": "Proved for all blocks with arguments, with fewer than 2⋆16 variables in a body with the copies of the arguments (copies_wrap shows what happens with more), and for blocks that are run at once if the last body has no header or predicate or has three variables; otherwise the code reads past the variables (no_match_reads_past). What an instruction does to values is a parameter."
  },
  {
   "property": "C65",
   "status": "proved",
   "theorems": [
    "Verif.Range.range_list",
    "Verif.Range.range_list_refuses",
    "Verif.Range.range_number",
    "Verif.Range.range_number_refuses"
   ],
   "note": "The word that is loaded from the bits of the list may hold anything after them. Fills and flags aren't modelled."
  },
  {
   "property": "C66",
   "status": "proved",
   "theorems": [
    "Verif.Windows.windows_gives",
    "Verif.Windows.windows_refuses",
    "Verif.Windows.windows_too_large",
    "Verif.Windows.long_axis_refused",
    "Verif.Windows.long_axis_empty",
    "Verif.Windows.pairs_refused"
   ],
   "note": "The last three theorems show what happens with the sizes that are left out: an error or a wrong shape. Fills and element types aren't modelled; 2/𝕩 is taken as what C24 proves of it."
  },
  {
   "property": "C67",
   "status": "proved",
   "theorems": [
    "Verif.Find.find_list",
    "Verif.Find.find_unit",
    "Verif.Find.find_table",
    "Verif.Find.find_empty",
    "Verif.Find.find_refuses",
    "Verif.Find.find_frame_refused",
    "Verif.Find.find_wraps"
   ],
   "note": "The last two theorems show what happens with the sizes that are left out. How two elements are compared is a parameter (C45); bits after the end of the result and fills aren't modelled."
  },
  {
   "property": "C68",
   "status": "proved",
   "theorems": [
    "Verif.Train.call_gives",
    "Verif.Train.call_held",
    "Verif.Train.call_returns",
    "Verif.Train.call_fails",
    "Verif.Train.runs_unique",
    "Verif.Train.fork_modifier_differs"
   ],
   "note": "For functions in which no fork has a modifier value as its left part: such a fork returns the modifier if its other parts are functions and fails otherwise (fork_modifier_differs). Other functions are any partial functions of their arguments and the state; that each consumes its arguments and returns one reference is assumed. On errors only that one is reported is stated, not what is still held: the code lets go of references then by its garbage collector."
  },
  {
   "property": "C69",
   "status": "proved",
   "theorems": [
    "Verif.Affixes.affixes_gives",
    "Verif.Affixes.affixes_refuses",
    "Verif.Affixes.affixes_wraps"
   ],
   "note": "For fewer than 268434456 major cells, above which the result is refused as too large; with exactly 2⋆32-1 cells the check is passed because the length wraps, and memory is overwritten (affixes_wraps)."
  },
  {
   "property": "C70",
   "status": "proved",
   "theorems": [
    "Verif.JoinTo.join_gives",
    "Verif.JoinTo.join_refuses",
    "Verif.JoinTo.join_length_wraps"
   ],
   "note": "For fewer than 2⋆32 elements and major cells in the result; with more cells, all empty, the first length wraps (join_length_wraps). How elements of different types are stored together is C12."
  },
  {
   "property": "C71",
   "status": "proved",
   "theorems": [
    "Verif.Import.imports_legal",
    "Verif.Import.none_running",
    "Verif.Import.import_once",
    "Verif.Import.import_again",
    "Verif.Import.import_cyclic",
    "Verif.Import.import_runs",
    "Verif.Import.import_cached"
   ],
   "note": "Programs are trees of effects, imports and catches; that the map from paths is a map is C05. Errors that can't be caught, such as running out of memory for the map itself, aren't modelled."
  },
  {
   "property": "C72",
   "status": "proved",
   "theorems": [
    "Verif.Scope.leave_safe",
    "Verif.Scope.leave_keeps_reachable",
    "Verif.Scope.leave_frees",
    "Verif.Scope.history_safe",
    "Verif.Scope.nothing_lost",
    "Verif.Scope.longer_cycle_stays"
   ],
   "note": "Counts are unbounded in the model (32 bits in the code). longer_cycle_stays shows a cycle that leaving does not free; the property does not claim that it does (the cycle collector, C09, is for those)."
  },
  {
   "property": "C73",
   "status": "proved",
   "theorems": [
    "Verif.Names.history_runs",
    "Verif.Names.numbers_distinct",
    "Verif.Names.field_read",
    "Verif.Names.get_reads",
    "Verif.Names.extract_reads",
    "Verif.Names.set_writes"
   ],
   "note": "For declarations as the compiler gives them (Decl.Good): equally many indices and flags, indices of names, room for the variables; the code does not check the last two. Numbers of names are unbounded in the model."
  },
  {
   "property": "C74",
   "status": "proved",
   "theorems": [
    "Verif.Fills.asFill_is_proto",
    "Verif.Fills.fillEqual_matches",
    "Verif.Fills.empty_fills_match",
    "Verif.Fills.withFill_gives",
    "Verif.Fills.withFill_unknown",
    "Verif.Fills.fillBoth_gives",
    "Verif.Fills.fillBoth_isFill",
    "Verif.Fills.oneItem_gives",
    "Verif.Fills.emptyArr_gives"
   ],
   "note": "By induction over nested values stored as numbers, characters, objects or objects with a fill. Element widths are not told apart, and that squeezing gives numbers or characters exactly when all elements are is taken from C14. empty_fills_match states that fills that are empty arrays of one shape count as the same whatever their own fills are."
  },
  {
   "property": "C75",
   "status": "partial",
   "theorems": [
    "Verif.Axes.select_axes_partial",
    "Verif.Axes.select_axes_refuses",
    "Verif.Axes.select_axes_large",
    "Verif.Axes.large_result_writes_outside",
    "Verif.Axes.large_result_example",
    "Verif.Axes.count_wraps",
    "Verif.Axes.empty_cells_undefined"
   ],
   "note": "Elements, shape and errors are proved for every result of fewer than 2⋆32 elements (2⋆28-1000 for objects). Missing because the code violates it: results that are empty only because cells of 𝕩 are (empty_cells_undefined: an assertion that release builds take as true fails), results of 2⋆32 elements or more from numbers or characters (large_result_writes_outside), and numbers of indices whose product is a multiple of 2⋆64 (count_wraps)."
  },
  {
   "property": "C76",
   "status": "proved",
   "theorems": [
    "Verif.Unorder.unorder_reorder",
    "Verif.Unorder.reorder_unorder",
    "Verif.Unorder.unorder_refused",
    "Verif.Unorder.under_reorder",
    "Verif.Unorder.under_misfit",
    "Verif.Unorder.under_nothing",
    "Verif.Unorder.under_refused",
    "Verif.Unorder.trElems_transpose",
    "Verif.Unorder.under_zero_unit"
   ],
   "note": "under_misfit excludes the number 0 as 𝕨 when 𝔽 gives an array without axes: the code accepts this (under_zero_unit)."
  },
  {
   "property": "C77",
   "status": "proved",
   "theorems": [
    "Verif.UnderSlash.under_slash",
    "Verif.UnderSlash.under_slash_refused",
    "Verif.UnderSlash.under_slash_objects",
    "Verif.UnderSlash.under_slash_elements",
    "Verif.UnderSlash.under_slash_booleans"
   ],
   "note": "The value of 𝕨/𝕩 that is given to 𝔽 is the subject of C25 and C26 and is an argument here; only its length is used."
  },
  {
   "property": "C78",
   "status": "proved",
   "theorems": [
    "Verif.Monarith.every_number",
    "Verif.Monarith.one_result",
    "Verif.Monarith.sound_result",
    "Verif.Monarith.maps_comp",
    "Verif.Monarith.maps_any",
    "Verif.Monarith.minus_minus"
   ],
   "note": "Numbers are compared as equal doubles: zeroes of both signs are equal, and so are all NaNs. What the processor does with doubles (0-v, 1-n, floor and ceil of integers) is assumed, as the fields of Flt.Ieee; 1÷v and √v are arbitrary functions. Values are as in C51."
  },
  {
   "property": "C79",
   "status": "proved",
   "theorems": [
    "Verif.Modulus.rem_unique",
    "Verif.Modulus.mod_arrays",
    "Verif.Modulus.mod_number_array",
    "Verif.Modulus.mod_number_zero",
    "Verif.Modulus.mod_array_number",
    "Verif.Modulus.mod_numbers",
    "Verif.Modulus.mod_same",
    "Verif.Modulus.mod_rounds_up"
   ],
   "note": "Floating-point numbers are rational numbers rounded to 24 or 53 bits (to nearest, ties to even) after each operation, with no limits to exponents. 𝕨 a power of 2 with an array 𝕩 has its own code, see C14. mod_rounds_up: for numbers that are not whole the result can be 𝕨 itself."
  },
  {
   "property": "C80",
   "status": "partial",
   "theorems": [
    "Verif.Ffi.write_read",
    "Verif.Ffi.write_accepts",
    "Verif.Ffi.write_near",
    "Verif.Ffi.write_within_partial",
    "Verif.Ffi.write_elsewhere",
    "Verif.Ffi.ptrobj_stride",
    "Verif.Ffi.field_read",
    "Verif.Ffi.field_write",
    "Verif.Ffi.field_bound",
    "Verif.Ffi.add_read",
    "Verif.Ffi.add_sub",
    "Verif.Ffi.add_diff",
    "Verif.Ffi.diff_sound",
    "Verif.Ffi.compat_same",
    "Verif.Ffi.compat_comm",
    "Verif.Ffi.untyped",
    "Verif.Ffi.write_overruns",
    "Verif.Ffi.fail_writes"
   ],
   "note": "Proved for all types, values and memories, except that memory after the value is unchanged only when no scalar narrower than 8 bytes is reinterpreted: the code copies 8 bytes for any reinterpreted scalar (write_overruns). A failing write may have changed the first fields (fail_writes). Field offsets come from libffi and are assumed not to overlap. Not modelled: the type `a`, places of type `*scalar:r`, arguments of foreign calls."
  },
  {
   "property": "C81",
   "status": "partial",
   "theorems": [
    "Verif.FfiCall.layout_ok",
    "Verif.FfiCall.plan_disjoint",
    "Verif.FfiCall.pick_order",
    "Verif.FfiCall.call_updates",
    "Verif.FfiCall.call_safe_partial",
    "Verif.FfiCall.buffer_fits",
    "Verif.FfiCall.mutable_pointer_ub",
    "Verif.FfiCall.size_wraps",
    "Verif.FfiCall.plan_wraps",
    "Verif.FfiCall.buffer_short"
   ],
   "note": "Updated values are proved for all types, values and foreign functions. Violated: a pointer object given for `&e` with `e` other than i8, i16, i32, f64 is afterwards taken for an array (mutable_pointer_ub), so call_safe_partial excludes it; types of 4 GiB and more get a size modulo 2^32 (size_wraps), as do the places of arguments (plan_wraps) and buffers of structures (buffer_short). Not modelled: the parser of types, foreign functions writing outside their buffers, aliasing of buffers, the type `a`, and element types in which arrays are stored."
  },
  {
   "property": "C82",
   "status": "partial",
   "theorems": [
    "Verif.FfiType.parse_exact",
    "Verif.FfiType.unambiguous",
    "Verif.FfiType.parse_ends",
    "Verif.FfiType.parse_reads_partial",
    "Verif.FfiType.dec_exact",
    "Verif.FfiType.dec_reads_partial",
    "Verif.FfiType.colon_overreads",
    "Verif.FfiType.letter_wraps"
   ],
   "note": "Acceptance is proved exact for all strings in which every character after a colon is below 256: the code reduces it modulo 256, so that `u16:𝕩8` is taken for `u16:i8` (letter_wraps). Reads stay within the string unless it ends with a colon, where the code does read behind the terminator (colon_overreads). Not modelled: messages, memory use, and the limit of the C stack for deep nesting."
  },
  {
   "property": "C83",
   "status": "partial",
   "theorems": [
    "Verif.Shell.output_in_order",
    "Verif.Shell.output_complete_partial",
    "Verif.Shell.input_in_order",
    "Verif.Shell.input_complete_partial",
    "Verif.Shell.no_deadlock",
    "Verif.Shell.waits_in_poll",
    "Verif.Shell.process_fed",
    "Verif.Shell.closed_once",
    "Verif.Shell.ends",
    "Verif.Shell.killed_only",
    "Verif.Shell.sigpipe_kills",
    "Verif.Shell.input_cut",
    "Verif.Shell.output_cut"
   ],
   "note": "Order, absence of deadlock and termination are proved for all schedules. The rest is partial because the code violates it: SIGPIPE is not ignored, so a process that closes its input early can have the interpreter killed (sigpipe_kills; killed_only shows that nothing else does); a process that closes both outputs before reading all its input can be told of the end too early (input_cut); and a handled signal during poll cuts the output (output_cut). Pipes follow Linux. Not modelled: creating the process, its arguments and exit code, the decoding of the output, and results too long for an array."
  },
  {
   "property": "C84",
   "status": "proved",
   "theorems": [
    "Verif.GroupRt.lengths_counted",
    "Verif.GroupRt.order_placed",
    "Verif.GroupRt.places_distinct",
    "Verif.GroupRt.group_order",
    "Verif.GroupRt.length_wraps"
   ],
   "note": "grLen_both and grOrd_c2 on lists of integers, with writes outside of a buffer and overflow of counts as outcomes; for fewer than 2^31-1 elements and group numbers below 2^32-66. Without elements, 2^32 groups asked for give none (length_wraps). The BQN code of the runtime that calls them is not part of the repository and not modelled."
  },
  {
   "property": "C85",
   "status": "partial",
   "theorems": [
    "Verif.FileIo.read_whole",
    "Verif.FileIo.stream_ends_partial",
    "Verif.FileIo.stream_error_unseen",
    "Verif.FileIo.write_reports_partial",
    "Verif.FileIo.flush_unchecked",
    "Verif.FileIo.write_read",
    "Verif.FileIo.byte_narrowed",
    "Verif.FileIo.number_ub"
   ],
   "note": "Reading files is proved in full. The rest is partial because the code violates it: a failing call ends the reading of a stream without an error (stream_error_unseen), the result of fclose is not used so that the last buffer can be lost unnoticed (flush_unchecked, for all data that does not fill its buffers), elements that are not bytes are cut to eight bits (byte_narrowed), and numbers outside of 32 bits are undefined behaviour (number_ub). Streams follow glibc. Not modelled: opening files, files changed while they are read."
  },
  {
   "property": "C86",
   "status": "proved",
   "theorems": [
    "Verif.EachRef.each_two",
    "Verif.EachRef.each_one"
   ],
   "note": "References are counted in a ledger: giving away a reference that is not owned, reading an array that is not owned, moving an element out twice and storing over an element that is still there are failures of the model, and are proved not to happen. Calls that end in an error are not modelled."
  },
  {
   "property": "C87",
   "status": "proved",
   "theorems": [
    "Verif.CombRef.before_calls",
    "Verif.CombRef.after_calls",
    "Verif.CombRef.atop_calls",
    "Verif.CombRef.over_calls",
    "Verif.CombRef.cond_calls",
    "Verif.CombRef.while_calls",
    "Verif.CombRef.repeat_calls",
    "Verif.CombRef.under_calls"
   ],
   "note": "References are counted in a ledger in which giving away what is not owned and calling a function that nothing holds are failures. Calls that end in an error, and modifiers as operands, which are errors, are not modelled; the results of Repeat in arrays are C59."
  },
  {
   "property": "C88",
   "status": "partial",
   "theorems": [
    "Verif.Session.session",
    "Verif.Session.all_visited_partial",
    "Verif.Session.none_visited",
    "Verif.Session.many_accepted"
   ],
   "note": "Names and values are as they should be for all histories. That the garbage collector sees all variables is proved for fewer than 32768 added ones; with 32768, which a line can add, it sees none (none_visited, many_accepted), so that part of the statement is false of the code."
  },
  {
   "property": "C89",
   "status": "proved",
   "theorems": [
    "Verif.Point.located",
    "Verif.Point.message",
    "Verif.Point.simple_message"
   ],
   "note": "For positions not after the end of the source and ends not before the start, as the compiler gives them; formatting of the number of the line is a parameter."
  },
  {
   "property": "C90",
   "status": "proved",
   "theorems": [
    "Verif.Args.obeyed",
    "Verif.Args.alone",
    "Verif.Args.unknown",
    "Verif.Args.no_crash",
    "Verif.Args.no_name",
    "Verif.Args.limit_wraps"
   ],
   "note": "For executions that return; options of some builds only are left out. From 2⋆44 megabytes on the limit wraps, so that the largest accepted numbers can mean no memory at all (limit_wraps). no_crash is for calls with the name of the program, as is usual; without it, an argument is read that is not there (no_name)."
  }
 ]
}