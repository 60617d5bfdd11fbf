# Axioms of each theorem named in MANIFEST.json

Printed by `#print axioms` over the whole library. `propext`, `Classical.choice` and `Quot.sound` are Lean's standard axioms; no other appears.

| property | theorem | axioms |
|---|---|---|
| C01 | `Verif.NanBox.isNum_iff_not_signallingNaN` | propext, Classical.choice, Quot.sound |
| C01 | `Verif.NanBox.isVal_iff_negative_signallingNaN` | propext, Classical.choice, Quot.sound |
| C01 | `Verif.NanBox.isVal_documented` | propext, Classical.choice, Quot.sound |
| C01 | `Verif.NanBox.isF64_documented` | propext, Classical.choice, Quot.sound |
| C01 | `Verif.NanBox.predicates_are_kinds` | propext, Classical.choice, Quot.sound |
| C01 | `Verif.NanBox.kind_unique` | propext, Classical.choice, Quot.sound |
| C01 | `Verif.NanBox.isVal_of_kind` | propext, Classical.choice, Quot.sound |
| C01 | `Verif.NanBox.isMd_isCallable` | propext, Classical.choice, Quot.sound |
| C01 | `Verif.NanBox.tag_roundtrip` | propext, Classical.choice, Quot.sound |
| C01 | `Verif.NanBox.tag_kind` | propext, Classical.choice, Quot.sound |
| C01 | `Verif.NanBox.char_roundtrip` | propext, Classical.choice, Quot.sound |
| C01 | `Verif.NanBox.q_c8_q_c16` | propext, Classical.choice, Quot.sound |
| C02 | `Verif.Utf8.decode_in_bounds` | propext, Classical.choice, Quot.sound |
| C02 | `Verif.Utf8.decode_ok_iff` | propext, Classical.choice, Quot.sound |
| C02 | `Verif.Utf8.decode_err_iff` | propext, Classical.choice, Quot.sound |
| C03 | `Verif.Utf8.decode_encode` | propext, Classical.choice, Quot.sound |
| C03 | `Verif.Utf8.encode_length` | propext, Quot.sound |
| C03 | `Verif.Utf8.encode_standard` | propext, Classical.choice, Quot.sound |
| C03 | `Verif.Utf8.decode_standard` | propext, Classical.choice, Quot.sound |
| C03 | `Verif.Utf8.encode_ascii` | propext, Quot.sound |
| C32 | `Verif.Gcd.gcd_u64_correct` | propext, Classical.choice, Quot.sound |
| C32 | `Verif.Gcd.lcm_u64_mod` | propext, Classical.choice, Quot.sound |
| C32 | `Verif.Gcd.lcm_u64_exact` | propext, Classical.choice, Quot.sound |
| C17 | `Verif.Scan.scan_bool_correct` | propext, Classical.choice, Quot.sound |
| C17 | `Verif.Scan.scan_bool_init_correct` | propext, Classical.choice, Quot.sound |
| C17 | `Verif.Scan.scan_ne_nonbit_correct` | propext, Classical.choice, Quot.sound |
| C17 | `Verif.Scan.scan_add_bool_correct` | propext, Classical.choice, Quot.sound |
| C17 | `Verif.Scan.scan_sub_bool_correct` | propext, Classical.choice, Quot.sound |
| C18 | `Verif.Fold.fold_bool_correct` | propext, Classical.choice, Quot.sound |
| C18 | `Verif.Fold.fold_bool_padding` | propext, Classical.choice, Quot.sound |
| C18 | `Verif.Fold.fold_bool_init_correct` | propext, Classical.choice, Quot.sound |
| C18 | `Verif.Fold.fold_bool_init_outcomes` | propext, Quot.sound |
| C18 | `Verif.Fold.fold_sub_init_undefined` | propext, Quot.sound |
| C37 | `Verif.Scan.scan_plus_correct` | propext, Classical.choice, Quot.sound |
| C37 | `Verif.Scan.scan_min_correct` | propext, Quot.sound |
| C37 | `Verif.Scan.scan_max_correct` | propext, Quot.sound |
| C37 | `Verif.Scan.scan_min_init_correct` | propext, Quot.sound |
| C37 | `Verif.Scan.scan_max_init_correct` | propext, Quot.sound |
| C37 | `Verif.Scan.scan_min_bit_init_correct` | propext, Classical.choice, Quot.sound |
| C37 | `Verif.Scan.scan_max_bit_init_correct` | propext, Classical.choice, Quot.sound |
| C15 | `Verif.BitCopy.bit_cpy_correct` | propext, Classical.choice, Quot.sound |
| C15 | `Verif.BitCopy.bit_cpy_writes` | propext, Classical.choice, Quot.sound |
| C15 | `Verif.BitCopy.bit_fill_correct` | propext, Classical.choice, Quot.sound |
| C15 | `Verif.BitCopy.bit_fill_writes` | propext, Classical.choice, Quot.sound |
| C16 | `Verif.BitCopy.reverse_bits_correct` | propext, Classical.choice, Quot.sound |
| C16 | `Verif.BitCopy.reverse_bits_writes` | propext, Classical.choice, Quot.sound |
| C19 | `Verif.Sum.fold_add_correct` | propext, Classical.choice, Quot.sound |
| C19 | `Verif.Sum.fold_add_small` | propext, Classical.choice, Quot.sound |
| C19 | `Verif.Sum.fold_add_init_correct` | propext, Classical.choice, Quot.sound |
| C19 | `Verif.Sum.usum_correct` | propext, Classical.choice, Quot.sound |
| C38 | `Verif.Sum.math_sum_correct_partial` | propext, Classical.choice, Quot.sound |
| C38 | `Verif.Sum.math_sum_offset_wraps` | propext, Classical.choice, Quot.sound |
| C38 | `Verif.Sum.math_sum_never_returns` | propext, Quot.sound |
| C39 | `Verif.Sum.fold_mul_correct` | propext, Quot.sound |
| C39 | `Verif.Sum.fold_min_correct` | propext, Quot.sound |
| C39 | `Verif.Sum.fold_max_correct` | propext, Quot.sound |
| C39 | `Verif.Sum.fold_or_correct` | propext, Quot.sound |
| C39 | `Verif.Sum.fold_or_answers` | propext, Quot.sound |
| C13 | `Verif.Arith.arith_arrays_correct` | propext, Classical.choice, Quot.sound |
| C13 | `Verif.Arith.arith_scalar_correct` | propext, Classical.choice, Quot.sound |
| C13 | `Verif.Arith.arith_exact` | propext, Classical.choice, Quot.sound |
| C14 | `Verif.Arith.Pow2.mod_pow2_correct_partial` | propext, Classical.choice, Quot.sound |
| C14 | `Verif.Arith.Pow2.mod_pow2_uninitialised` | propext, Quot.sound |
| C40 | `Verif.Arith.chr_add_correct` | propext, Classical.choice, Quot.sound |
| C40 | `Verif.Arith.chr_sub_correct` | propext, Classical.choice, Quot.sound |
| C40 | `Verif.Arith.chr_add_scalar_correct` | propext, Classical.choice, Quot.sound |
| C40 | `Verif.Arith.chr_sub_scalar_correct` | propext, Classical.choice, Quot.sound |
| C40 | `Verif.Arith.chr_diff_correct` | propext, Classical.choice, Quot.sound |
| C40 | `Verif.Arith.chr_add_undefined` | none |
| C40 | `Verif.Arith.chr_add_scalar_undefined` | none |
| C07 | `Verif.Buddy.live_disjoint` | propext, Classical.choice, Quot.sound |
| C07 | `Verif.Buddy.alloc_progress` | propext, Classical.choice, Quot.sound |
| C07 | `Verif.Buddy.alloc_fails_only` | propext, Quot.sound |
| C08 | `Verif.Buddy.merge_completes` | propext, Classical.choice, Quot.sound |
| C08 | `Verif.Buddy.memory_partition` | propext, Classical.choice, Quot.sound |
| C08 | `Verif.Buddy.memory_accounted` | propext, Classical.choice, Quot.sound |
| C08 | `Verif.Buddy.forHeap_visits` | propext, Classical.choice, Quot.sound |
| C08 | `Verif.Buddy.merge_keeps` | propext, Classical.choice, Quot.sound |
| C04 | `Verif.HTab.table_is_map` | propext, Classical.choice, Quot.sound |
| C04 | `Verif.HTab.small_table_hangs` | propext |
| C04 | `Verif.HTab.interning` | propext, Classical.choice, Quot.sound |
| C30 | `Verif.Search.index_of_correct` | propext, Classical.choice, Quot.sound |
| C30 | `Verif.Search.index_of_unit_correct` | propext, Classical.choice, Quot.sound |
| C30 | `Verif.Search.index_of_long_wrong` | propext, Classical.choice, Quot.sound |
| C30 | `Verif.Search.member_of_correct` | propext, Classical.choice, Quot.sound |
| C30 | `Verif.Search.member_of_unit_correct` | propext, Classical.choice, Quot.sound |
| C30 | `Verif.Search.progressive_index_correct` | propext, Classical.choice, Quot.sound |
| C30 | `Verif.HTab.indexOf_hash_eq` | propext, Classical.choice, Quot.sound |
| C30 | `Verif.HTab.memberOf_hash_eq` | propext, Classical.choice, Quot.sound |
| C30 | `Verif.HTab.progIndexOf_hash_eq` | propext, Classical.choice, Quot.sound |
| C31 | `Verif.SelfSearch.mark_firsts_correct` | propext, Classical.choice, Quot.sound |
| C31 | `Verif.SelfSearch.occurrence_count_correct` | propext, Classical.choice, Quot.sound |
| C31 | `Verif.SelfSearch.occurrence_count_limit` | propext, Quot.sound |
| C31 | `Verif.SelfSearch.classify_correct` | propext, Classical.choice, Quot.sound |
| C31 | `Verif.SelfSearch.classify_limit_wrong` | propext, Classical.choice, Quot.sound |
| C31 | `Verif.SelfSearch.deduplicate_correct` | propext, Classical.choice, Quot.sound |
| C31 | `Verif.SelfSearch.mark_layout` | propext, Classical.choice, Quot.sound |
| C31 | `Verif.SelfSearch.count_layout` | propext, Classical.choice, Quot.sound |
| C31 | `Verif.SelfSearch.mark_firsts_overflows` | none |
| C31 | `Verif.SelfSearch.mark_fits_limit` | none |
| C31 | `Verif.HTab.markFirsts_hash_eq` | propext, Classical.choice, Quot.sound |
| C31 | `Verif.HTab.occurrence_hash_eq` | propext, Classical.choice, Quot.sound |
| C31 | `Verif.HTab.classify_hash_eq` | propext, Classical.choice, Quot.sound |
| C05 | `Verif.HashMap.hashmap_correct` | propext, Classical.choice, Quot.sound |
| C05 | `Verif.HashMap.hashmap_small` | propext, Classical.choice, Quot.sound |
| C05 | `Verif.HashMap.hashmap_duplicates` | propext, Classical.choice, Quot.sound |
| C05 | `Verif.HashMap.hashmap_safe` | propext, Classical.choice, Quot.sound |
| C06 | `Verif.HashMap.hashmap_safe` | propext, Classical.choice, Quot.sound |
| C06 | `Verif.HashMap.hashmap_broken_after_error` | propext, Classical.choice, Quot.sound |
| C20 | `Verif.Compare.compare_defined` | propext, Classical.choice, Quot.sound |
| C20 | `Verif.Compare.compare_antisymm` | propext, Classical.choice, Quot.sound |
| C20 | `Verif.Compare.compare_trans` | propext, Classical.choice, Quot.sound |
| C20 | `Verif.Compare.compare_zero` | propext, Classical.choice, Quot.sound |
| C20 | `Verif.Compare.compare_refl` | propext, Classical.choice, Quot.sound |
| C20 | `Verif.Compare.compare_numbers` | propext, Classical.choice, Quot.sound |
| C20 | `Verif.Compare.compare_characters` | propext, Classical.choice, Quot.sound |
| C20 | `Verif.Compare.compare_number_character` | propext |
| C20 | `Verif.Compare.compare_atom` | propext, Classical.choice, Quot.sound |
| C20 | `Verif.Compare.compare_lists_differ` | propext, Classical.choice, Quot.sound |
| C20 | `Verif.Compare.compare_lists_prefix` | propext, Classical.choice, Quot.sound |
| C21 | `Verif.Sort.sort_booleans` | propext, Classical.choice, Quot.sound |
| C21 | `Verif.Sort.sort_integers` | propext, Classical.choice, Quot.sound |
| C21 | `Verif.Sort.sort_integers_perm` | propext, Classical.choice, Quot.sound |
| C21 | `Verif.Sort.sort_integers_overflow` | propext, Classical.choice, Quot.sound |
| C21 | `Verif.Sort.sort_values` | propext, Classical.choice, Quot.sound |
| C21 | `Verif.Sort.grade_booleans` | propext, Classical.choice, Quot.sound |
| C21 | `Verif.Sort.grade_integers` | propext, Classical.choice, Quot.sound |
| C21 | `Verif.Sort.grade_characters` | propext, Classical.choice, Quot.sound |
| C21 | `Verif.Sort.grade_values` | propext, Classical.choice, Quot.sound |
| C21 | `Verif.Sort.grade_too_large` | propext, Quot.sound |
| C21 | `Verif.Sort.sort_selects_by_grade` | propext, Classical.choice, Quot.sound |
| C21 | `Verif.Sort.sort_unique` | propext, Classical.choice, Quot.sound |
| C21 | `Verif.Sort.grade_unique` | propext, Classical.choice, Quot.sound |
| C22 | `Verif.Bins.bins_counts` | propext, Classical.choice, Quot.sound |
| C22 | `Verif.Bins.bins_unsorted` | propext, Classical.choice, Quot.sound |
| C22 | `Verif.Bins.bins_too_big` | propext, Quot.sound |
| C22 | `Verif.Bins.bin_insert` | propext, Classical.choice, Quot.sound |
| C09 | `Verif.Gc.gc_keeps` | propext, Classical.choice, Quot.sound |
| C09 | `Verif.Gc.heap_history` | propext, Classical.choice, Quot.sound |
| C09 | `Verif.Gc.heap_after_gc` | propext, Classical.choice, Quot.sound |
| C09 | `Verif.Gc.many_blocks_freed` | propext, Quot.sound |
| C10 | `Verif.Gc.gc_frees` | propext, Classical.choice, Quot.sound |
| C10 | `Verif.Gc.heap_after_gc` | propext, Classical.choice, Quot.sound |
| C11 | `Verif.Squeeze.squeeze_any_partial` | propext, Classical.choice, Quot.sound |
| C11 | `Verif.Squeeze.squeeze_num_new` | propext, Classical.choice, Quot.sound |
| C11 | `Verif.Squeeze.squeeze_chr_new` | propext, Classical.choice, Quot.sound |
| C11 | `Verif.Squeeze.squeeze_num_try_partial` | propext, Classical.choice, Quot.sound |
| C11 | `Verif.Squeeze.squeeze_chr_try_partial` | propext, Classical.choice, Quot.sound |
| C11 | `Verif.Squeeze.squeeze_chr_try_empty` | propext, Quot.sound |
| C12 | `Verif.Append.el_or_least` | propext, Classical.choice, Quot.sound |
| C12 | `Verif.Append.storable_holds` | propext, Classical.choice, Quot.sound |
| C12 | `Verif.Append.append_history` | propext, Classical.choice, Quot.sound |
| C12 | `Verif.Append.order_flags_history` | propext, Classical.choice, Quot.sound |
| C12 | `Verif.Append.flags_history_partial` | propext, Classical.choice, Quot.sound |
| C12 | `Verif.Append.stale_squeezed_flag` | propext, Quot.sound |
| C12 | `Verif.Append.append_writes_past_end` | propext, Quot.sound |
| C12 | `Verif.Append.join_loses_elements` | propext, Classical.choice, Quot.sound |
| C12 | `Verif.Append.join_writes_past_end` | propext, Classical.choice, Quot.sound |
| C23 | `Verif.Slash.where_positions` | propext, Classical.choice, Quot.sound |
| C23 | `Verif.Slash.compress_keeps` | propext, Classical.choice, Quot.sound |
| C23 | `Verif.Slash.compress_keeps_cells` | propext, Classical.choice, Quot.sound |
| C23 | `Verif.Slash.compress_keeps_bits` | propext, Classical.choice, Quot.sound |
| C23 | `Verif.Slash.compress_keeps_bit_cells` | propext, Classical.choice, Quot.sound |
| C24 | `Verif.Rep.indices_counts` | propext, Classical.choice, Quot.sound |
| C24 | `Verif.Rep.replicate_empty` | propext, Quot.sound |
| C24 | `Verif.Rep.replicate_elements` | propext, Classical.choice, Quot.sound |
| C24 | `Verif.Rep.replicate_cells` | propext, Classical.choice, Quot.sound |
| C24 | `Verif.Rep.replicate_bits` | propext, Classical.choice, Quot.sound |
| C24 | `Verif.Rep.replicate_bit_cells` | propext, Classical.choice, Quot.sound |
| C24 | `Verif.Rep.replicate_all_elements` | propext, Quot.sound |
| C24 | `Verif.Rep.replicate_all_cells` | propext, Classical.choice, Quot.sound |
| C24 | `Verif.Rep.replicate_all_bits` | propext, Classical.choice, Quot.sound |
| C24 | `Verif.Rep.replicate_all_bit_cells` | propext, Classical.choice, Quot.sound |
| C24 | `Verif.Rep.indices_inverse_counts` | propext, Classical.choice, Quot.sound |
| C24 | `Verif.Rep.indices_inverse_rejects` | propext, Classical.choice, Quot.sound |
| C24 | `Verif.Rep.indices_inverse_safe` | propext, Classical.choice, Quot.sound |
| C24 | `Verif.Rep.indices_inverse_round_trip` | propext, Classical.choice, Quot.sound |
| C24 | `Verif.Rep.replicate_all_writes_outside` | propext, Quot.sound |
| C24 | `Verif.Rep.replicate_writes_outside` | propext, Classical.choice, Quot.sound |
| C24 | `Verif.Rep.replicate_length_wraps` | none |
| C25 | `Verif.Select.select_elements` | propext, Classical.choice, Quot.sound |
| C25 | `Verif.Select.select_cells` | propext, Classical.choice, Quot.sound |
| C25 | `Verif.Select.select_bits` | propext, Classical.choice, Quot.sound |
| C25 | `Verif.Select.select_empty_cells_unchecked` | propext, Quot.sound |
| C25 | `Verif.Select.select_large_cells_uninitialised` | propext, Quot.sound |
| C25 | `Verif.Select.select_writes_outside` | propext, Quot.sound |
| C25 | `Verif.Widen.select_bit_cells` | propext, Classical.choice, Quot.sound |
| C25 | `Verif.Widen.select_widened_writes_outside` | propext, Classical.choice, Quot.sound |
| C26 | `Verif.Under.under_select_elements` | propext, Classical.choice, Quot.sound |
| C26 | `Verif.Under.under_select_bits` | propext, Classical.choice, Quot.sound |
| C26 | `Verif.Under.under_select_bit_cells` | propext, Classical.choice, Quot.sound |
| C26 | `Verif.Under.under_select_object_cells` | propext, Classical.choice, Quot.sound |
| C26 | `Verif.Under.under_select_cells_partial` | propext, Classical.choice, Quot.sound |
| C26 | `Verif.Under.under_select_each` | propext, Quot.sound |
| C26 | `Verif.Under.under_select_each_bits` | propext, Classical.choice, Quot.sound |
| C26 | `Verif.Under.under_select_wrong_accept` | propext, Quot.sound |
| C26 | `Verif.Under.under_select_wrong_reject` | propext, Classical.choice, Quot.sound |
| C26 | `Verif.Under.under_select_empty_cells_fatal` | propext, Quot.sound |
| C27 | `Verif.Rotate.rotate_number` | propext, Classical.choice, Quot.sound |
| C27 | `Verif.Rotate.rotate_list` | propext, Classical.choice, Quot.sound |
| C27 | `Verif.Rotate.rotate_number_bits` | propext, Classical.choice, Quot.sound |
| C27 | `Verif.Rotate.rotate_number_rejects` | propext, Classical.choice, Quot.sound |
| C27 | `Verif.Rotate.rotate_axes` | propext, Classical.choice, Quot.sound |
| C27 | `Verif.Rotate.rotate_axes_bits` | propext, Classical.choice, Quot.sound |
| C27 | `Verif.Rotate.rotate_axes_rejects` | propext, Classical.choice, Quot.sound |
| C27 | `Verif.Rotate.rotate_round_trip` | propext, Classical.choice, Quot.sound |
| C27 | `Verif.Rotate.rotate_round_trip_bits` | propext, Classical.choice, Quot.sound |
| C27 | `Verif.Rotate.rotate_no_way_back` | propext |
| C28 | `Verif.Transpose.transpose_index` | propext, Classical.choice, Quot.sound |
| C28 | `Verif.Transpose.transpose_list` | propext, Quot.sound |
| C28 | `Verif.Transpose.transpose_inverse_index` | propext, Classical.choice, Quot.sound |
| C28 | `Verif.Transpose.transpose_round_trip` | propext, Classical.choice, Quot.sound |
| C28 | `Verif.Transpose.transpose_round_trip_elems` | propext, Classical.choice, Quot.sound |
| C29 | `Verif.Group.group_cells` | propext, Classical.choice, Quot.sound |
| C29 | `Verif.Group.group_bit_cells` | propext, Classical.choice, Quot.sound |
| C29 | `Verif.Group.group_list` | propext, Classical.choice, Quot.sound |
| C29 | `Verif.Group.group_rejects_negative` | propext, Quot.sound |
| C29 | `Verif.Group.group_rejects_length` | propext |
| C29 | `Verif.Group.group_writes_outside` | propext, Classical.choice, Quot.sound |
| C33 | `Verif.Rand.deal_permutation` | propext, Classical.choice, Quot.sound |
| C33 | `Verif.Rand.deal_distinct` | propext, Classical.choice, Quot.sound |
| C33 | `Verif.Rand.deal_refuses` | propext, Quot.sound |
| C33 | `Verif.Rand.deal_copy_undefined` | propext, Quot.sound |
| C33 | `Verif.Rand.subset_increasing` | propext, Classical.choice, Quot.sound |
| C33 | `Verif.Rand.subset_refuses` | propext, Quot.sound |
| C41 | `Verif.Rand.range_below` | propext, Classical.choice, Quot.sound |
| C41 | `Verif.Rand.range_writes_outside` | propext, Quot.sound |
| C41 | `Verif.Rand.range_one_below` | propext, Classical.choice, Quot.sound |
| C41 | `Verif.Rand.range_one_reaches` | none |
| C34 | `Verif.Vm.stack_discipline_partial` | propext, Classical.choice, Quot.sound |
| C34 | `Verif.Vm.predicate_exceeds_reserved` | propext |
| C34 | `Verif.Vm.namespace_exceeds_reserved` | propext |
| C34 | `Verif.Vm.check_below_base` | propext |
| C34 | `Verif.Vm.list_count_negative` | propext |
| C34 | `Verif.Vm.unknown_instruction_accepted` | propext |
| C34 | `Verif.Vm.compile_reads_past_end` | propext |
| C35 | `Verif.Vm.Catch.catch_restores` | propext, Quot.sound |
| C35 | `Verif.Vm.Catch.run_balanced` | propext, Quot.sound |
| C35 | `Verif.Vm.Catch.catch_stops_errors` | propext, Quot.sound |
| C35 | `Verif.Vm.Catch.stack_values_freed_once` | propext, Quot.sound |
| C36 | `Verif.Sizes.reshape_exact_partial` | propext, Classical.choice, Quot.sound |
| C36 | `Verif.Sizes.range_exact` | propext, Quot.sound |
| C36 | `Verif.Sizes.windows_exact` | propext, Classical.choice, Quot.sound |
| C36 | `Verif.Sizes.table_exact` | propext, Classical.choice, Quot.sound |
| C36 | `Verif.Sizes.merge_exact` | propext, Classical.choice, Quot.sound |
| C36 | `Verif.Sizes.take_exact_partial` | propext, Quot.sound |
| C36 | `Verif.Sizes.drop_exact` | propext, Classical.choice, Quot.sound |
| C36 | `Verif.Sizes.takedrop_exact_partial` | propext, Classical.choice, Quot.sound |
| C36 | `Verif.Sizes.couple_exact_partial` | propext, Quot.sound |
| C36 | `Verif.Sizes.join_list_exact_partial` | propext, Classical.choice, Quot.sound |
| C36 | `Verif.Sizes.join_array_exact_partial` | propext, Quot.sound |
| C36 | `Verif.Sizes.reshape_floor_wraps` | propext |
| C36 | `Verif.Sizes.take_empty_wraps` | propext |
| C36 | `Verif.Sizes.take_axis_wraps` | propext |
| C36 | `Verif.Sizes.couple_wraps` | none |
| C36 | `Verif.Sizes.join_list_wraps` | none |
| C36 | `Verif.Sizes.join_many_wraps` | propext, Quot.sound |
| C36 | `Verif.Sizes.join_rank_wraps` | none |
| C36 | `Verif.Sizes.join_array_wraps` | none |
| C42 | `Verif.Reshape.cycleBits_spec` | propext, Classical.choice, Quot.sound |
| C42 | `Verif.Reshape.cycleTyped_spec` | propext, Classical.choice, Quot.sound |
| C42 | `Verif.Reshape.cycleItems_spec` | propext, Quot.sound |
| C42 | `Verif.Reshape.reshapeOne_spec` | propext, Classical.choice, Quot.sound |
| C43 | `Verif.Take.takedrop_elems` | propext, Classical.choice, Quot.sound |
| C43 | `Verif.Take.takedrop_bits` | propext, Classical.choice, Quot.sound |
| C43 | `Verif.Take.take_list` | propext, Classical.choice, Quot.sound |
| C43 | `Verif.Take.drop_list` | propext, Classical.choice, Quot.sound |
| C43 | `Verif.Take.sources_in` | propext, Classical.choice, Quot.sound |
| C43 | `Verif.Take.fillBits_word_after` | propext, Quot.sound |
| C44 | `Verif.Widen.widen_narrow` | propext, Classical.choice, Quot.sound |
| C44 | `Verif.Widen.widen_cells` | propext, Classical.choice, Quot.sound |
| C44 | `Verif.Widen.cells_as_numbers` | propext, Classical.choice, Quot.sound |
| C44 | `Verif.Widen.select_bit_cells` | propext, Classical.choice, Quot.sound |
| C44 | `Verif.Widen.widen_writes_outside` | propext, Quot.sound |
| C44 | `Verif.Widen.select_widened_writes_outside` | propext, Classical.choice, Quot.sound |
| C44 | `Verif.Widen.search_wraps` | propext, Quot.sound |
| C45 | `Verif.Match.match_exact` | propext, Classical.choice, Quot.sound |
| C45 | `Verif.Match.ematch_exact` | propext, Classical.choice, Quot.sound |
| C45 | `Verif.Match.typed_exact` | propext, Classical.choice, Quot.sound |
| C46 | `Verif.Match.match_same_hash` | propext, Classical.choice, Quot.sound |
| C46 | `Verif.Match.wyhash_bytes` | propext, Classical.choice, Quot.sound |
| C46 | `Verif.Match.stale_flag_hash` | propext, Classical.choice, Quot.sound |
| C47 | `Verif.Shift.shift_fill_elems` | propext, Classical.choice, Quot.sound |
| C47 | `Verif.Shift.shift_fill_bits` | propext, Classical.choice, Quot.sound |
| C47 | `Verif.Shift.shift_elems` | propext, Classical.choice, Quot.sound |
| C47 | `Verif.Shift.shift_bits` | propext, Classical.choice, Quot.sound |
| C47 | `Verif.Shift.shift_refused` | propext, Classical.choice, Quot.sound |
| C47 | `Verif.Shift.shift_lists` | propext, Classical.choice, Quot.sound |
| C47 | `Verif.Shift.reverse_bytes` | propext, Classical.choice, Quot.sound |
| C47 | `Verif.Shift.reverse_bools` | propext, Classical.choice, Quot.sound |
| C48 | `Verif.Reorder.reorder_elems` | propext, Classical.choice, Quot.sound |
| C48 | `Verif.Reorder.reorder_bools` | propext, Classical.choice, Quot.sound |
| C48 | `Verif.Reorder.reorder_refused` | propext, Classical.choice, Quot.sound |
| C48 | `Verif.Reorder.source_injective` | propext, Classical.choice, Quot.sound |
| C48 | `Verif.Reorder.source_surjective` | propext, Classical.choice, Quot.sound |
| C48 | `Verif.Reorder.reorder_dup_missed` | propext |
| C49 | `Verif.BitFn.cast_bits_partial` | propext, Classical.choice, Quot.sound |
| C49 | `Verif.BitFn.cast_back_partial` | propext, Classical.choice, Quot.sound |
| C49 | `Verif.BitFn.cast_refused` | propext, Classical.choice, Quot.sound |
| C49 | `Verif.BitFn.cast_count_wraps` | propext, Classical.choice, Quot.sound |
| C49 | `Verif.BitFn.cast_boxed_chars` | propext, Classical.choice, Quot.sound |
| C50 | `Verif.BitFn.one_pieces_partial` | propext, Classical.choice, Quot.sound |
| C50 | `Verif.BitFn.one_refused` | propext, Classical.choice, Quot.sound |
| C50 | `Verif.BitFn.bits_not_allocated` | propext, Classical.choice, Quot.sound |
| C50 | `Verif.BitFn.two_same_partial` | propext, Classical.choice, Quot.sound |
| C50 | `Verif.BitFn.two_left_partial` | propext, Classical.choice, Quot.sound |
| C50 | `Verif.BitFn.two_right_partial` | propext, Classical.choice, Quot.sound |
| C50 | `Verif.BitFn.two_refused` | propext, Classical.choice, Quot.sound |
| C50 | `Verif.BitFn.two_not_allocated` | propext, Classical.choice, Quot.sound |
| C50 | `Verif.BitFn.mul_undefined` | propext, Classical.choice, Quot.sound |
| C51 | `Verif.Pervade.compare_every_pair` | propext, Classical.choice, Quot.sound |
| C51 | `Verif.Pervade.compare_one_result` | propext, Classical.choice, Quot.sound |
| C51 | `Verif.Pervade.compare_exchange` | propext, Classical.choice, Quot.sound |
| C51 | `Verif.Pervade.characters_signed` | propext, Quot.sound |
| C52 | `Verif.Pervade.each_in_order` | propext, Classical.choice, Quot.sound |
| C52 | `Verif.Pervade.cell_index` | propext, Quot.sound |
| C53 | `Verif.Merge.merge_same` | propext, Classical.choice, Quot.sound |
| C53 | `Verif.Merge.merge_only` | propext, Classical.choice, Quot.sound |
| C53 | `Verif.Merge.merge_differ` | propext, Classical.choice, Quot.sound |
| C53 | `Verif.Merge.merge_rank` | propext, Classical.choice, Quot.sound |
| C53 | `Verif.Merge.merge_fill` | propext, Classical.choice, Quot.sound |
| C53 | `Verif.Merge.merge_empty` | propext, Classical.choice, Quot.sound |
| C53 | `Verif.Merge.appended_in_order` | propext, Classical.choice, Quot.sound |
| C54 | `Verif.Cells.rank_monadic_partial` | propext, Classical.choice, Quot.sound |
| C54 | `Verif.Cells.rank_dyadic_partial` | propext, Classical.choice, Quot.sound |
| C54 | `Verif.Cells.cells_monadic_partial` | propext, Classical.choice, Quot.sound |
| C54 | `Verif.Cells.cells_dyadic_partial` | propext, Classical.choice, Quot.sound |
| C54 | `Verif.Cells.cell_index` | propext, Quot.sound |
| C54 | `Verif.Cells.pair_index` | propext, Quot.sound |
| C54 | `Verif.Cells.merge_index` | propext, Quot.sound |
| C54 | `Verif.Cells.wrapped_to_none` | propext |
| C54 | `Verif.Cells.wrapped_to_two` | propext |
| C55 | `Verif.Insert.fold_calls` | propext, Classical.choice, Quot.sound |
| C55 | `Verif.Insert.fold_init_calls` | propext, Quot.sound |
| C55 | `Verif.Insert.fold_value` | none |
| C55 | `Verif.Insert.insert_calls_partial` | propext, Classical.choice, Quot.sound |
| C55 | `Verif.Insert.insert_init_calls` | propext, Classical.choice, Quot.sound |
| C55 | `Verif.Insert.fits_nonempty` | propext, Classical.choice, Quot.sound |
| C55 | `Verif.Insert.scan_calls` | propext, Classical.choice, Quot.sound |
| C55 | `Verif.Insert.scan_init_calls` | propext, Classical.choice, Quot.sound |
| C55 | `Verif.Insert.scan_value` | propext |
| C55 | `Verif.Insert.identity_without_elements` | propext |
| C55 | `Verif.Insert.identity_of_one_element` | propext |
| C55 | `Verif.Insert.join_wraps` | propext, Quot.sound |
| C56 | `Verif.Known.known_one_partial` | propext, Classical.choice, Quot.sound |
| C56 | `Verif.Known.known_left_partial` | propext, Classical.choice, Quot.sound |
| C56 | `Verif.Known.known_right_partial` | propext, Classical.choice, Quot.sound |
| C56 | `Verif.Known.known_both_partial` | propext, Classical.choice, Quot.sound |
| C56 | `Verif.Known.shape_rank` | propext |
| C56 | `Verif.Known.join_keeps_axis` | propext |
| C56 | `Verif.Known.identity_boxed` | propext |
| C56 | `Verif.Known.identity_missing` | propext |
| C56 | `Verif.Known.identity_wraps` | propext |
| C56 | `Verif.Known.shape_wraps` | propext |
| C56 | `Verif.Known.couple_wraps` | propext, Classical.choice, Quot.sound |
| C56 | `Verif.Known.couple_rank` | propext |
| C56 | `Verif.Known.shift_again` | propext, Classical.choice, Quot.sound |
| C57 | `Verif.Join.join_fits_partial` | propext, Classical.choice, Quot.sound |
| C57 | `Verif.Join.join_unfit_partial` | propext, Classical.choice, Quot.sound |
| C57 | `Verif.Join.join_large_partial` | propext, Classical.choice, Quot.sound |
| C57 | `Verif.Join.joined_unique` | propext, Quot.sound |
| C57 | `Verif.Join.overlap_refuses` | propext, Quot.sound |
| C57 | `Verif.Join.overlap_accepts` | propext |
| C57 | `Verif.Join.list_rank_255` | propext, Quot.sound |
| C57 | `Verif.Join.join_wraps` | propext, Classical.choice, Quot.sound |
| C58 | `Verif.Table.table_in_order` | propext, Classical.choice, Quot.sound |
| C58 | `Verif.Table.table_index` | propext, Quot.sound |
| C58 | `Verif.Table.each_one_in_order` | propext, Quot.sound |
| C58 | `Verif.Table.each_keeps_operand_partial` | propext, Quot.sound |
| C58 | `Verif.Table.table_loses_operand` | propext, Classical.choice, Quot.sound |
| C59 | `Verif.Repeat.repeat_calls` | propext, Classical.choice, Quot.sound |
| C59 | `Verif.Repeat.repeat_values` | propext, Classical.choice, Quot.sound |
| C59 | `Verif.Repeat.repeat_refuses` | propext, Classical.choice, Quot.sound |
| C59 | `Verif.Repeat.while_stops` | propext, Quot.sound |
| C59 | `Verif.Repeat.while_goes_on` | propext, Quot.sound |
| C59 | `Verif.Repeat.while_refuses` | propext, Quot.sound |
| C60 | `Verif.Pick.pick_gives` | propext, Classical.choice, Quot.sound |
| C60 | `Verif.Pick.pick_refuses` | propext, Classical.choice, Quot.sound |
| C60 | `Verif.Pick.pick_first` | propext |
| C60 | `Verif.Pick.choose_calls` | propext, Classical.choice, Quot.sound |
| C60 | `Verif.Pick.pick_empty_depends` | propext |
| C61 | `Verif.File.lines_exist` | propext, Quot.sound |
| C61 | `Verif.File.lines_read` | propext, Classical.choice, Quot.sound |
| C61 | `Verif.File.lines_invalid` | propext, Classical.choice, Quot.sound |
| C61 | `Verif.File.lines_of_text` | propext, Classical.choice, Quot.sound |
| C61 | `Verif.File.lines_round_trip` | propext, Classical.choice, Quot.sound |
| C61 | `Verif.File.chars_round_trip` | propext, Classical.choice, Quot.sound |
| C61 | `Verif.File.bytes_round_trip` | propext, Quot.sound |
| C61 | `Verif.File.bytes_copy` | propext, Quot.sound |
| C61 | `Verif.File.bytes_truncated` | none |
| C61 | `Verif.File.at_absolute` | propext |
| C61 | `Verif.File.at_nowhere` | propext, Quot.sound |
| C61 | `Verif.File.at_relative` | propext, Classical.choice, Quot.sound |
| C61 | `Verif.File.at_empty_base` | none |
| C61 | `Verif.File.name_last` | propext, Quot.sound |
| C61 | `Verif.File.name_whole` | propext, Quot.sound |
| C61 | `Verif.File.parent_of` | propext, Quot.sound |
| C61 | `Verif.File.parent_here` | propext, Quot.sound |
| C61 | `Verif.File.at_parent_name` | propext, Classical.choice, Quot.sound |
| C62 | `Verif.Assign.assign_binds` | propext, Quot.sound |
| C62 | `Verif.Assign.assign_fails` | propext, Quot.sound |
| C62 | `Verif.Assign.assign_only` | propext, Quot.sound |
| C62 | `Verif.Assign.assign_wf` | propext, Quot.sound |
| C62 | `Verif.Assign.header_binds` | propext, Quot.sound |
| C62 | `Verif.Assign.modify_calls` | propext, Quot.sound |
| C62 | `Verif.Assign.modify_error` | propext, Quot.sound |
| C62 | `Verif.Assign.modify_needs` | propext, Quot.sound |
| C62 | `Verif.Assign.modify_assign` | propext, Classical.choice, Quot.sound |
| C62 | `Verif.Assign.modify_same` | propext, Quot.sound |
| C62 | `Verif.Assign.read_var` | propext |
| C62 | `Verif.Assign.read_field` | propext, Quot.sound |
| C62 | `Verif.Assign.field_leaks` | propext |
| C62 | `Verif.Assign.merge_in_fields` | propext |
| C62 | `Verif.Assign.merge_encloses` | propext |
| C63 | `Verif.Lens.under_replaces` | propext, Classical.choice, Quot.sound |
| C63 | `Verif.Lens.under_rejects` | propext, Classical.choice, Quot.sound |
| C63 | `Verif.Lens.under_dyadic` | propext, Classical.choice, Quot.sound |
| C63 | `Verif.Lens.replaced_unique` | propext, Classical.choice, Quot.sound |
| C63 | `Verif.Lens.under_calls_left` | propext, Classical.choice, Quot.sound |
| C63 | `Verif.Lens.under_pick_empty` | propext, Classical.choice, Quot.sound |
| C63 | `Verif.Lens.under_atop_swapped` | propext |
| C64 | `Verif.Bodies.body_selected` | propext, Classical.choice, Quot.sound |
| C64 | `Verif.Bodies.body_selected_at_once_partial` | propext, Classical.choice, Quot.sound |
| C64 | `Verif.Bodies.no_match_reads_past` | propext |
| C64 | `Verif.Bodies.copies_wrap` | propext, Quot.sound |
| C64 | `Verif.Bodies.unsorted_refused` | propext, Quot.sound |
| C65 | `Verif.Range.range_list` | propext, Classical.choice, Quot.sound |
| C65 | `Verif.Range.range_list_refuses` | propext, Classical.choice, Quot.sound |
| C65 | `Verif.Range.range_number` | propext, Classical.choice, Quot.sound |
| C65 | `Verif.Range.range_number_refuses` | propext, Quot.sound |
| C66 | `Verif.Windows.windows_gives` | propext, Classical.choice, Quot.sound |
| C66 | `Verif.Windows.windows_refuses` | propext, Quot.sound |
| C66 | `Verif.Windows.windows_too_large` | propext, Classical.choice, Quot.sound |
| C66 | `Verif.Windows.long_axis_refused` | propext |
| C66 | `Verif.Windows.long_axis_empty` | propext |
| C66 | `Verif.Windows.pairs_refused` | propext, Quot.sound |
| C67 | `Verif.Find.find_list` | propext, Classical.choice, Quot.sound |
| C67 | `Verif.Find.find_unit` | propext, Quot.sound |
| C67 | `Verif.Find.find_table` | propext, Classical.choice, Quot.sound |
| C67 | `Verif.Find.find_empty` | propext, Classical.choice, Quot.sound |
| C67 | `Verif.Find.find_refuses` | propext |
| C67 | `Verif.Find.find_frame_refused` | propext |
| C67 | `Verif.Find.find_wraps` | propext |
| C68 | `Verif.Train.call_gives` | propext, Classical.choice, Quot.sound |
| C68 | `Verif.Train.call_held` | propext, Classical.choice, Quot.sound |
| C68 | `Verif.Train.call_returns` | propext, Classical.choice, Quot.sound |
| C68 | `Verif.Train.call_fails` | propext, Classical.choice, Quot.sound |
| C68 | `Verif.Train.runs_unique` | propext, Classical.choice, Quot.sound |
| C68 | `Verif.Train.fork_modifier_differs` | propext |
| C69 | `Verif.Affixes.affixes_gives` | propext, Quot.sound |
| C69 | `Verif.Affixes.affixes_refuses` | propext, Quot.sound |
| C69 | `Verif.Affixes.affixes_wraps` | propext |
| C70 | `Verif.JoinTo.join_gives` | propext, Quot.sound |
| C70 | `Verif.JoinTo.join_refuses` | propext, Classical.choice, Quot.sound |
| C70 | `Verif.JoinTo.join_length_wraps` | propext |
| C71 | `Verif.Import.imports_legal` | propext, Quot.sound |
| C71 | `Verif.Import.none_running` | propext, Quot.sound |
| C71 | `Verif.Import.import_once` | propext, Quot.sound |
| C71 | `Verif.Import.import_again` | propext, Classical.choice, Quot.sound |
| C71 | `Verif.Import.import_cyclic` | propext, Quot.sound |
| C71 | `Verif.Import.import_runs` | none |
| C71 | `Verif.Import.import_cached` | none |
| C72 | `Verif.Scope.leave_safe` | propext, Classical.choice, Quot.sound |
| C72 | `Verif.Scope.leave_keeps_reachable` | propext, Classical.choice, Quot.sound |
| C72 | `Verif.Scope.leave_frees` | propext, Classical.choice, Quot.sound |
| C72 | `Verif.Scope.history_safe` | propext, Classical.choice, Quot.sound |
| C72 | `Verif.Scope.nothing_lost` | propext, Classical.choice, Quot.sound |
| C72 | `Verif.Scope.longer_cycle_stays` | propext, Quot.sound |
| C73 | `Verif.Names.history_runs` | propext, Quot.sound |
| C73 | `Verif.Names.numbers_distinct` | propext, Quot.sound |
| C73 | `Verif.Names.field_read` | propext, Classical.choice, Quot.sound |
| C73 | `Verif.Names.get_reads` | propext, Classical.choice, Quot.sound |
| C73 | `Verif.Names.extract_reads` | propext, Classical.choice, Quot.sound |
| C73 | `Verif.Names.set_writes` | propext, Classical.choice, Quot.sound |
| C74 | `Verif.Fills.asFill_is_proto` | propext, Classical.choice, Quot.sound |
| C74 | `Verif.Fills.fillEqual_matches` | propext, Classical.choice, Quot.sound |
| C74 | `Verif.Fills.empty_fills_match` | propext, Classical.choice, Quot.sound |
| C74 | `Verif.Fills.withFill_gives` | propext, Classical.choice, Quot.sound |
| C74 | `Verif.Fills.withFill_unknown` | propext, Classical.choice, Quot.sound |
| C74 | `Verif.Fills.fillBoth_gives` | propext, Classical.choice, Quot.sound |
| C74 | `Verif.Fills.fillBoth_isFill` | propext |
| C74 | `Verif.Fills.oneItem_gives` | propext, Classical.choice, Quot.sound |
| C74 | `Verif.Fills.emptyArr_gives` | propext, Quot.sound |
| C75 | `Verif.Axes.select_axes_partial` | propext, Classical.choice, Quot.sound |
| C75 | `Verif.Axes.select_axes_refuses` | propext, Classical.choice, Quot.sound |
| C75 | `Verif.Axes.select_axes_large` | propext, Classical.choice, Quot.sound |
| C75 | `Verif.Axes.large_result_writes_outside` | propext, Classical.choice, Quot.sound |
| C75 | `Verif.Axes.large_result_example` | propext, Classical.choice, Quot.sound |
| C75 | `Verif.Axes.count_wraps` | propext, Classical.choice, Quot.sound |
| C75 | `Verif.Axes.empty_cells_undefined` | propext |
| C76 | `Verif.Unorder.unorder_reorder` | propext, Classical.choice, Quot.sound |
| C76 | `Verif.Unorder.reorder_unorder` | propext, Classical.choice, Quot.sound |
| C76 | `Verif.Unorder.unorder_refused` | propext, Classical.choice, Quot.sound |
| C76 | `Verif.Unorder.under_reorder` | propext, Classical.choice, Quot.sound |
| C76 | `Verif.Unorder.under_misfit` | propext, Classical.choice, Quot.sound |
| C76 | `Verif.Unorder.under_nothing` | propext, Classical.choice, Quot.sound |
| C76 | `Verif.Unorder.under_refused` | propext, Classical.choice, Quot.sound |
| C76 | `Verif.Unorder.trElems_transpose` | propext, Classical.choice, Quot.sound |
| C76 | `Verif.Unorder.under_zero_unit` | propext, Quot.sound |
| C77 | `Verif.UnderSlash.under_slash` | propext, Classical.choice, Quot.sound |
| C77 | `Verif.UnderSlash.under_slash_refused` | propext |
| C77 | `Verif.UnderSlash.under_slash_objects` | propext, Classical.choice, Quot.sound |
| C77 | `Verif.UnderSlash.under_slash_elements` | propext, Classical.choice, Quot.sound |
| C77 | `Verif.UnderSlash.under_slash_booleans` | propext, Classical.choice, Quot.sound |
| C78 | `Verif.Monarith.every_number` | propext, Classical.choice, Quot.sound |
| C78 | `Verif.Monarith.one_result` | propext, Quot.sound |
| C78 | `Verif.Monarith.sound_result` | propext, Classical.choice, Quot.sound |
| C78 | `Verif.Monarith.maps_comp` | propext, Quot.sound |
| C78 | `Verif.Monarith.maps_any` | propext, Quot.sound |
| C78 | `Verif.Monarith.minus_minus` | propext, Classical.choice, Quot.sound |
| C79 | `Verif.Modulus.rem_unique` | propext, Classical.choice, Quot.sound |
| C79 | `Verif.Modulus.mod_arrays` | propext, Classical.choice, Quot.sound |
| C79 | `Verif.Modulus.mod_number_array` | propext, Classical.choice, Quot.sound |
| C79 | `Verif.Modulus.mod_number_zero` | propext, Classical.choice, Quot.sound |
| C79 | `Verif.Modulus.mod_array_number` | propext, Classical.choice, Quot.sound |
| C79 | `Verif.Modulus.mod_numbers` | propext, Classical.choice, Quot.sound |
| C79 | `Verif.Modulus.mod_same` | propext, Classical.choice, Quot.sound |
| C79 | `Verif.Modulus.mod_rounds_up` | propext, Classical.choice, Quot.sound |
| C80 | `Verif.Ffi.write_read` | propext, Classical.choice, Quot.sound |
| C80 | `Verif.Ffi.write_accepts` | propext, Classical.choice, Quot.sound |
| C80 | `Verif.Ffi.write_near` | propext, Quot.sound |
| C80 | `Verif.Ffi.write_within_partial` | propext, Quot.sound |
| C80 | `Verif.Ffi.write_elsewhere` | propext, Quot.sound |
| C80 | `Verif.Ffi.ptrobj_stride` | none |
| C80 | `Verif.Ffi.field_read` | propext, Quot.sound |
| C80 | `Verif.Ffi.field_write` | propext, Classical.choice, Quot.sound |
| C80 | `Verif.Ffi.field_bound` | propext, Classical.choice, Quot.sound |
| C80 | `Verif.Ffi.add_read` | propext |
| C80 | `Verif.Ffi.add_sub` | propext, Quot.sound |
| C80 | `Verif.Ffi.add_diff` | propext, Classical.choice, Quot.sound |
| C80 | `Verif.Ffi.diff_sound` | propext, Quot.sound |
| C80 | `Verif.Ffi.compat_same` | propext |
| C80 | `Verif.Ffi.compat_comm` | propext |
| C80 | `Verif.Ffi.untyped` | propext |
| C80 | `Verif.Ffi.write_overruns` | propext, Quot.sound |
| C80 | `Verif.Ffi.fail_writes` | propext |
| C81 | `Verif.FfiCall.layout_ok` | propext, Quot.sound |
| C81 | `Verif.FfiCall.plan_disjoint` | propext, Classical.choice, Quot.sound |
| C81 | `Verif.FfiCall.pick_order` | propext, Quot.sound |
| C81 | `Verif.FfiCall.call_updates` | propext, Classical.choice, Quot.sound |
| C81 | `Verif.FfiCall.call_safe_partial` | propext, Quot.sound |
| C81 | `Verif.FfiCall.buffer_fits` | propext |
| C81 | `Verif.FfiCall.mutable_pointer_ub` | propext |
| C81 | `Verif.FfiCall.size_wraps` | propext, Quot.sound |
| C81 | `Verif.FfiCall.plan_wraps` | none |
| C81 | `Verif.FfiCall.buffer_short` | propext, Quot.sound |
| C82 | `Verif.FfiType.parse_exact` | propext, Classical.choice, Quot.sound |
| C82 | `Verif.FfiType.unambiguous` | propext, Classical.choice, Quot.sound |
| C82 | `Verif.FfiType.parse_ends` | propext, Classical.choice, Quot.sound |
| C82 | `Verif.FfiType.parse_reads_partial` | propext, Classical.choice, Quot.sound |
| C82 | `Verif.FfiType.dec_exact` | propext, Classical.choice, Quot.sound |
| C82 | `Verif.FfiType.dec_reads_partial` | propext, Classical.choice, Quot.sound |
| C82 | `Verif.FfiType.colon_overreads` | propext, Classical.choice, Quot.sound |
| C82 | `Verif.FfiType.letter_wraps` | propext, Classical.choice, Quot.sound |
| C83 | `Verif.Shell.output_in_order` | propext |
| C83 | `Verif.Shell.output_complete_partial` | propext |
| C83 | `Verif.Shell.input_in_order` | propext, Classical.choice, Quot.sound |
| C83 | `Verif.Shell.input_complete_partial` | propext, Classical.choice, Quot.sound |
| C83 | `Verif.Shell.no_deadlock` | propext |
| C83 | `Verif.Shell.waits_in_poll` | propext, Quot.sound |
| C83 | `Verif.Shell.process_fed` | propext, Classical.choice, Quot.sound |
| C83 | `Verif.Shell.closed_once` | propext, Classical.choice, Quot.sound |
| C83 | `Verif.Shell.ends` | propext, Quot.sound |
| C83 | `Verif.Shell.killed_only` | propext, Classical.choice, Quot.sound |
| C83 | `Verif.Shell.sigpipe_kills` | propext, Quot.sound |
| C83 | `Verif.Shell.input_cut` | propext |
| C83 | `Verif.Shell.output_cut` | propext |
| C84 | `Verif.GroupRt.lengths_counted` | propext, Classical.choice, Quot.sound |
| C84 | `Verif.GroupRt.order_placed` | propext, Classical.choice, Quot.sound |
| C84 | `Verif.GroupRt.places_distinct` | propext, Classical.choice, Quot.sound |
| C84 | `Verif.GroupRt.group_order` | propext, Classical.choice, Quot.sound |
| C84 | `Verif.GroupRt.length_wraps` | propext |
| C85 | `Verif.FileIo.read_whole` | propext, Quot.sound |
| C85 | `Verif.FileIo.stream_ends_partial` | propext, Classical.choice, Quot.sound |
| C85 | `Verif.FileIo.stream_error_unseen` | propext |
| C85 | `Verif.FileIo.write_reports_partial` | propext, Classical.choice, Quot.sound |
| C85 | `Verif.FileIo.flush_unchecked` | propext, Classical.choice, Quot.sound |
| C85 | `Verif.FileIo.write_read` | propext, Classical.choice, Quot.sound |
| C85 | `Verif.FileIo.byte_narrowed` | propext |
| C85 | `Verif.FileIo.number_ub` | none |
| C86 | `Verif.EachRef.each_two` | propext, Classical.choice, Quot.sound |
| C86 | `Verif.EachRef.each_one` | propext, Classical.choice, Quot.sound |
| C87 | `Verif.CombRef.before_calls` | propext, Quot.sound |
| C87 | `Verif.CombRef.after_calls` | propext, Quot.sound |
| C87 | `Verif.CombRef.atop_calls` | propext, Quot.sound |
| C87 | `Verif.CombRef.over_calls` | propext, Quot.sound |
| C87 | `Verif.CombRef.cond_calls` | propext, Quot.sound |
| C87 | `Verif.CombRef.while_calls` | propext, Quot.sound |
| C87 | `Verif.CombRef.repeat_calls` | propext, Quot.sound |
| C87 | `Verif.CombRef.under_calls` | propext, Quot.sound |
| C88 | `Verif.Session.session` | propext, Classical.choice, Quot.sound |
| C88 | `Verif.Session.all_visited_partial` | propext, Classical.choice, Quot.sound |
| C88 | `Verif.Session.none_visited` | propext, Classical.choice, Quot.sound |
| C88 | `Verif.Session.many_accepted` | propext, Classical.choice, Quot.sound |
| C89 | `Verif.Point.located` | propext, Quot.sound |
| C89 | `Verif.Point.message` | propext, Classical.choice, Quot.sound |
| C89 | `Verif.Point.simple_message` | propext, Quot.sound |
| C90 | `Verif.Args.obeyed` | propext, Quot.sound |
| C90 | `Verif.Args.alone` | propext |
| C90 | `Verif.Args.unknown` | propext, Classical.choice, Quot.sound |
| C90 | `Verif.Args.no_crash` | propext, Quot.sound |
| C90 | `Verif.Args.no_name` | propext |
| C90 | `Verif.Args.limit_wraps` | propext |
