{
 "claims": [
  {
   "property": "C01",
   "status": "partial",
   "theorems": [
    "Awk.Props.C01_alternatives_violated",
    "Awk.Props.C01_nested_tuple_violated",
    "Awk.Props.C01_partial"
   ],
   "note": "every sequence of Python objects (None, bool, int, float, str or bytes, lists, tuples, dicts) of any nesting; guards: one string encoding, no tuple inside a shorter tuple, at most 121 tuple lengths; negations proved for each guard; complex numbers and dates are not included"
  },
  {
   "property": "C02",
   "status": "proved",
   "theorems": [
    "Awk.Props.C02_snapshot"
   ],
   "note": "any operations (create, fill, append, clear, convert) on any number of buffers in a shared heap, every initial size >= 1 and growth factor > 1 (exact product)"
  },
  {
   "property": "C03",
   "status": "proved",
   "theorems": [
    "Awk.Props.C03_appends",
    "Awk.Props.C03_buffers",
    "Awk.Props.C03_hypotheses_needed"
   ],
   "note": "as C02; the hypotheses are shown to be needed"
  },
  {
   "property": "C04",
   "status": "partial",
   "theorems": [
    "Awk.Props.C04_open_violated",
    "Awk.Props.C04_partial",
    "Awk.Props.C04_record_violated",
    "Awk.Props.C04_tuple_violated"
   ],
   "note": "any builder without tuples and records that holds complete values, refilled with any commands; negations proved for tuples, records and open lists"
  },
  {
   "property": "C05",
   "status": "partial",
   "theorems": [
    "Awk.Props.C05_complex_violated",
    "Awk.Props.C05_from_int_violated",
    "Awk.Props.C05_index_violated",
    "Awk.Props.C05_partial"
   ],
   "note": "every sequence of commands, well formed or not, compared with a specification of what the commands spell out; guards: nonnegative field numbers, no complex numbers, one string encoding, 127 kinds of values; negations proved; the state after an error is not included"
  },
  {
   "property": "C06",
   "status": "partial",
   "theorems": [
    "Awk.Props.C06_partial",
    "Awk.Props.C06_violated"
   ],
   "note": "strings or bytes among any other values; the negation is proved for both in one builder"
  },
  {
   "property": "C07",
   "status": "proved",
   "theorems": [
    "Awk.Props.C07_check_is_memory_safe",
    "Awk.Props.C07_valid_implies_readable"
   ],
   "note": "every node class; the categorical uniqueness part of the check is left out of the model, so the modelled check accepts more arrays than the code"
  },
  {
   "property": "C08",
   "status": "proved",
   "theorems": [
    "Awk.Props.C08_getitem_at"
   ],
   "note": "every node class; n-dimensional NumpyArray nodes are treated in the strided model"
  },
  {
   "property": "C09",
   "status": "proved",
   "theorems": [
    "Awk.Props.C09_getitem_range"
   ],
   "note": "every node class"
  },
  {
   "property": "C10",
   "status": "proved",
   "theorems": [
    "Awk.Props.C10_positions_inside",
    "Awk.Props.C10_range_slice",
    "Awk.Props.C10_zero_step_raises"
   ],
   "note": "range slices of lists of any length with any start/stop/step, compared with an independent Python-range specification"
  },
  {
   "property": "C11",
   "status": "proved",
   "theorems": [
    "Awk.Props.C11_carry_picks_rows",
    "Awk.Props.C11_getitem_array",
    "Awk.Props.C11_getitem_no_positions"
   ],
   "note": "every node class; any nonempty list of positions, and the empty list"
  },
  {
   "property": "C12",
   "status": "partial",
   "theorems": [
    "Awk.Props.C12_mask_partial",
    "Awk.Props.C12_strided_violated"
   ],
   "note": "every node class, any mask of the length of the array stored one byte per entry; the negation is proved for strided masks that reach NumpyArray::asslice"
  },
  {
   "property": "C13",
   "status": "partial",
   "theorems": [
    "Awk.Props.C13_getitem_partial",
    "Awk.Props.C13_no_fields_violated",
    "Awk.Props.C13_out_of_range_raises",
    "Awk.Props.C13_record_violated",
    "Awk.Props.C13_step_violated"
   ],
   "note": "integers, ranges, index arrays and newaxis over lists, options, indexes, and one item over records; unions and ellipsis not modelled; negations proved for later items over records, records without fields and the largest step"
  },
  {
   "property": "C14",
   "status": "partial",
   "theorems": [
    "Awk.Props.C14_lists_partial",
    "Awk.Props.C14_missing_both_violated",
    "Awk.Props.C14_missing_lists_violated",
    "Awk.Props.C14_missing_partial",
    "Awk.Props.C14_nested_missing_violated",
    "Awk.Props.C14_strided_violated",
    "Awk.Props.C14_unknown_violated"
   ],
   "note": "Ragged integer indexes of any depth, through missing lists at the innermost level, records and lazy indexes (C14_lists_partial), and with missing positions (C14_missing_partial): result, and raising exactly when lengths differ or a position is out of range. False, with proved witnesses, for missing positions together with missing lists, missing lists above the innermost level, missing lists in the index, lists of unknown type and strided indexes; unions and fixed-size lists in the index are not modelled."
  },
  {
   "property": "C15",
   "status": "proved",
   "theorems": [
    "Awk.Props.C15_is_none",
    "Awk.Props.C15_project",
    "Awk.Props.C15_to_byte_masked",
    "Awk.Props.C15_to_indexed_option"
   ],
   "note": "all four encodings, both polarities and bit orders; conversion keeps to_list and validity; is_none and project agree with the shown None values"
  },
  {
   "property": "C16",
   "status": "partial",
   "theorems": [
    "Awk.Props.C16_simplify_flat_partial",
    "Awk.Props.C16_simplify_preserves_values",
    "Awk.Props.C16_simplify_removes_one",
    "Awk.Props.C16_triple_nesting_violated"
   ],
   "note": "values are preserved at every depth and two levels are flattened; the negation is proved for three levels (only one level is removed, and the result is rejected by the validity check)"
  },
  {
   "property": "C17",
   "status": "partial",
   "theorems": [
    "Awk.Props.C17_simplify_partial"
   ],
   "note": "any number of alternatives and one level of nested unions, with and without merging; guards: no mix of IndexedArrays and option types, records as long as their fields, RegularArray of size 1 not directly over records"
  },
  {
   "property": "C18",
   "status": "partial",
   "theorems": [
    "Awk.Props.C18_complex_violated",
    "Awk.Props.C18_concatenate_any_partial",
    "Awk.Props.C18_concatenate_partial",
    "Awk.Props.C18_concatenate_two_partial",
    "Awk.Props.C18_merge_partial",
    "Awk.Props.C18_mergemany_partial",
    "Awk.Props.C18_mixed_violated",
    "Awk.Props.C18_neighbours_violated",
    "Awk.Props.C18_no_fields_violated",
    "Awk.Props.C18_record_to_tuple_violated",
    "Awk.Props.C18_untrimmed_violated"
   ],
   "note": "merge of two mergeable arrays, mergemany and concatenate of any number of arrays of one type, concatenate of any two arrays and (partial correctness) of any arrays; guards as in C17; negations proved for mixed IndexedArray/option arrays, record arrays shorter than their fields or without fields, and for concatenate comparing only neighbours, and for complex numbers merged with others"
  },
  {
   "property": "C19",
   "status": "partial",
   "theorems": [
    "Awk.Props.C19_flatten",
    "Awk.Props.C19_num",
    "Awk.Props.C19_num_axis0",
    "Awk.Props.C19_unflatten_partial",
    "Awk.Props.C19_unflatten_violated"
   ],
   "note": "every list class, every encoding of missing lists, indexed arrays; flatten also for unions (num of a union needs simplify_uniontype, not modelled there); flatten and num at the axes the property names. The round trip through unflatten holds for flattened arrays that can be packed (C19_unflatten_partial); it is false for records with fields of different depths, which unflatten refuses (C19_unflatten_violated)."
  },
  {
   "property": "C20",
   "status": "partial",
   "theorems": [
    "Awk.Props.C20_to_list_offset",
    "Awk.Props.C20_to_regular_partial",
    "Awk.Props.C20_to_regular_raises",
    "Awk.Props.C20_to_regular_violated"
   ],
   "note": "to_list is kept by every rewriting and to_regular raises when two lengths differ; success needs the offsets to lie in the content or a nonempty list; the negation is proved for empty lists with offsets beyond the content"
  },
  {
   "property": "C21",
   "status": "proved",
   "theorems": [
    "Awk.Props.C21_local_index",
    "Awk.Props.C21_local_index_axis0",
    "Awk.Props.C21_local_index_axis1"
   ],
   "note": "axis 0 and every positive axis, through lists, records, options, indexes and unions"
  },
  {
   "property": "C22",
   "status": "partial",
   "theorems": [
    "Awk.Props.C22_pad_axis0_partial",
    "Awk.Props.C22_pad_clip_partial",
    "Awk.Props.C22_pad_empty_violated",
    "Awk.Props.C22_pad_partial",
    "Awk.Props.C22_pad_record_violated",
    "Awk.Props.C22_pad_unmasked_violated"
   ],
   "note": "proved for every class except unions, every axis and target; guards: record nodes as long as their fields, no clipping of an UnmaskedArray at axis 0, and without clip no empty ListArray; negations proved for each guard"
  },
  {
   "property": "C23",
   "status": "partial",
   "theorems": [
    "Awk.Props.C23_fillna_partial",
    "Awk.Props.C23_nested_violated"
   ],
   "note": "every class except unions and every encoding of missing values, any value; the negation is proved for missing values below a node that may be missing"
  },
  {
   "property": "C24",
   "status": "partial",
   "theorems": [
    "Awk.Props.C24_choose_items",
    "Awk.Props.C24_choose_spec",
    "Awk.Props.C24_combinations_axis0",
    "Awk.Props.C24_combinations_partial",
    "Awk.Props.C24_count",
    "Awk.Props.C24_kernel",
    "Awk.Props.C24_refused",
    "Awk.Props.C24_regular_always_violated",
    "Awk.Props.C24_regular_violated"
   ],
   "note": "combinations at axis 0 of every valid array and at any positive axis under every class, with and without replacement, as tuples or records; the picks are characterised independently (each exactly once, lexicographic). Missing: negative axes. False for regular lists of fewer than n items, where the code writes out of bounds (proved for every such array)."
  },
  {
   "property": "C25",
   "status": "partial",
   "theorems": [
    "Awk.Props.C25_indexed_record_violated",
    "Awk.Props.C25_reduce_innermost_partial",
    "Awk.Props.C25_sliced_option_violated"
   ],
   "note": "Reducers at the innermost axis (C25_reduce_innermost_partial): every reducer that does not return positions, on numbers nested in every class of list, option and index node, with missing values; proved through reduce_next of every class, the parents and outoffsets kernels and the accumulation kernels. Missing: records and unions. False for slices of arrays with missing lists and for IndexedArrays of records of lists, which raise (two _violated theorems). Integers are unbounded and reals are rationals."
  },
  {
   "property": "C26",
   "status": "partial",
   "theorems": [
    "Awk.Props.C26_four_dimensions_violated",
    "Awk.Props.C26_leading_empty_violated",
    "Awk.Props.C26_reduce_axis0_partial",
    "Awk.Props.C26_reduce_outer_partial",
    "Awk.Props.C26_reduce_three_partial",
    "Awk.Props.C26_regular_violated"
   ],
   "note": "Reducers at the second innermost axis in any number of dimensions, and at axis 0 of two and three dimensions, for every reducer that does not return positions, over every class of list, option and index node. Conditions on the lengths are needed and shown to be needed: a group of empty lists before a nonempty one, regular dimensions in groups of different widths, and four or more dimensions give wrong results or raise (three _violated theorems). Missing: records and unions, argmin and argmax at outer axes."
  },
  {
   "property": "C27",
   "status": "partial",
   "theorems": [
    "Awk.Props.C27_argmin_argmax_partial",
    "Awk.Props.C27_complex_violated",
    "Awk.Props.C27_missing_list_violated",
    "Awk.Props.C27_sliced_violated"
   ],
   "note": "argmin/argmax at the innermost axis, counting positions from the beginning of each list, first of equal items, None for no items (C27_argmin_argmax_partial), for arrays whose ListOffsetArrays begin at offset zero. False for slices (C27_sliced_violated) and for complex numbers (C27_complex_violated). Missing: records and unions."
  },
  {
   "property": "C28",
   "status": "partial",
   "theorems": [
    "Awk.Props.C28_agreement_partial",
    "Awk.Props.C28_argsort_missing_violated",
    "Awk.Props.C28_argsort_partial",
    "Awk.Props.C28_missing_lists_violated",
    "Awk.Props.C28_missing_numbers_violated",
    "Awk.Props.C28_records_violated",
    "Awk.Props.C28_sliced_violated",
    "Awk.Props.C28_sort_partial"
   ],
   "note": "Proved for sort and argsort at the innermost axis, stable or not, ascending or descending, of booleans, integers and reals in lists of all kinds, indexes and missing values (C28_sort_partial, C28_argsort_partial), and their agreement in lists without missing values (C28_agreement_partial). Needs: ListOffsetArrays begin at offset zero, lists are missing only at the top level, numbers only below it, no records, no unions. False otherwise (C28_*_violated). No NaNs. With stable=False, lists are shorter than 2^48."
  },
  {
   "property": "C29",
   "status": "partial",
   "theorems": [
    "Awk.Props.C29_argsort_partial",
    "Awk.Props.C29_descending_violated",
    "Awk.Props.C29_sort_partial",
    "Awk.Props.C29_zero_bytes_violated"
   ],
   "note": "Proved for ascending sort and argsort of strings in lists of all kinds and depths, stable or not (std::sort assumed to do what the C++ standard says): the same strings, in alphabetical order if none has zero bytes. Needs: ListOffsetArrays above the strings begin at offset zero; no missing strings, records or unions. Descending order of two equal strings is undefined behaviour (C29_descending_violated); with zero bytes the order is wrong (C29_zero_bytes_violated)."
  },
  {
   "property": "C30",
   "status": "partial",
   "theorems": [
    "Awk.Props.C30_lists_violated",
    "Awk.Props.C30_nested_lists_violated",
    "Awk.Props.C30_no_lists_violated",
    "Awk.Props.C30_numbers_partial",
    "Awk.Props.C30_partitions_violated",
    "Awk.Props.C30_record_violated",
    "Awk.Props.C30_records_partial",
    "Awk.Props.C30_sliced_index_violated",
    "Awk.Props.C30_strings_partial",
    "Awk.Props.C30_strings_violated"
   ],
   "note": "Proved: for booleans, integers and reals with any indexes and missing values, is_unique answers true exactly when no two items are equal, Nones aside (C30_numbers_partial); the same for strings of all list kinds that are not empty and lie in the first 256 bytes (C30_strings_partial); for records of at least two such fields without missing values, the answer true is right (C30_records_partial). False for lists, records with one field, other strings, sliced indexes and partitioned arrays (C30_*_violated). Missing: other types of numbers (complex, datetimes)."
  },
  {
   "property": "C31",
   "status": "partial",
   "theorems": [
    "Awk.Props.C31_array_partial",
    "Awk.Props.C31_at_partial",
    "Awk.Props.C31_project_partial",
    "Awk.Props.C31_range_partial",
    "Awk.Props.C31_union_partial"
   ],
   "note": "Selecting fields by name, by lists of names and by paths of them (C31_project_partial), and the commutation with integers, ranges and index arrays (C31_at_partial, C31_range_partial, C31_array_partial), for records below any lists and missing values; the selection from unions of such arrays whose fields can be merged (C31_union_partial). Missing: unions inside of lists or missing values, rows of unions."
  },
  {
   "property": "C32",
   "status": "proved",
   "theorems": [
    "Awk.Props.C32_partition_getitem_at"
   ],
   "note": "element access of partitioned arrays through partitionid_index_at"
  },
  {
   "property": "C33",
   "status": "proved",
   "theorems": [
    "Awk.Props.C33_partition_getitem_range",
    "Awk.Props.C33_zero_step_raises"
   ],
   "note": "range slices of partitioned arrays, both signs of step"
  },
  {
   "property": "C34",
   "status": "partial",
   "theorems": [
    "Awk.Props.C34_repartition_length_mismatch_raises",
    "Awk.Props.C34_repartition_partial",
    "Awk.Props.C34_trailing_empty_partition_violated"
   ],
   "note": "proved when no partition after the last nonempty one is empty; the negation is proved for a trailing empty partition (out-of-bounds read)"
  },
  {
   "property": "C35",
   "status": "partial",
   "theorems": [
    "Awk.Props.C35_bitmask_violated",
    "Awk.Props.C35_checked",
    "Awk.Props.C35_element",
    "Awk.Props.C35_length_violated",
    "Awk.Props.C35_names_violated",
    "Awk.Props.C35_transparent_partial",
    "Awk.Props.C35_union_violated"
   ],
   "note": "Lazy arrays that keep their promises, over arrays without bit masks: any sequence of lazy ranges, steps, positions, new axes and projections gives the same elements, or raises, as on the array itself, whatever else is read in between and whatever the caches drop (C35_transparent_partial); single elements (C35_element); promises are checked at each reading (C35_checked). False, with proved witnesses, for functions that give more than promised, bit masks in records, fields of unions and duplicate names. Not modelled: arrays with lazy parts, the Ellipsis, tuples of slice items."
  },
  {
   "property": "C36",
   "status": "partial",
   "theorems": [
    "Awk.Props.C36_bitmask_violated",
    "Awk.Props.C36_default_names",
    "Awk.Props.C36_duplicate_violated",
    "Awk.Props.C36_field_order_violated",
    "Awk.Props.C36_mask_violated",
    "Awk.Props.C36_offsets_violated",
    "Awk.Props.C36_ordinary",
    "Awk.Props.C36_partitions_partial",
    "Awk.Props.C36_round_trip_partial"
   ],
   "note": "Every valid layout of every class with any index widths and dtypes, any container, any names that are distinct (C36_default_names: the default ones are), also partitioned: to_buffers succeeds and leaves other buffers alone, and from_buffers gives a copy, equal as Python objects with equal form (C36_round_trip_partial, C36_partitions_partial), if the last offset of every list node is inside its content and masked contents store their lengths or are used completely (C36_ordinary). False without these conditions, for the order of fields, for bit masks in fields of records and for duplicate names (proved). Not modelled: lazy=True, NumpyArrays of more dimensions, identities, virtual arrays."
  },
  {
   "property": "C37",
   "status": "partial",
   "theorems": [
    "Awk.Props.C37_all_finish_partial",
    "Awk.Props.C37_schedules_partial",
    "Awk.Props.C37_violated_do",
    "Awk.Props.C37_violated_exit"
   ],
   "note": "programs without do loops and exit, any schedule of steps and resumes, any input; the negation is proved for a do loop and for exit"
  },
  {
   "property": "C38",
   "status": "partial",
   "theorems": [
    "Awk.Props.C38_bounds_partial",
    "Awk.Props.C38_errors",
    "Awk.Props.C38_polite_partial",
    "Awk.Props.C38_violated_call",
    "Awk.Props.C38_violated_exit",
    "Awk.Props.C38_violated_read"
   ],
   "note": "every compiled program that does not use both exit and do, any requests; guards: repeat counts of reads and rewinds are not negative, calls from outside have room; programs without repeated reads and rewinds need no guard on counts; negations proved for each guard"
  },
  {
   "property": "C39",
   "status": "proved",
   "theorems": [
    "Awk.Props.C39_begin_again",
    "Awk.Props.C39_keeps_kind",
    "Awk.Props.C39_reset",
    "Awk.Props.C39_stays"
   ],
   "note": "every machine state with an error and any further requests; reset gives the initial state (the kind of the error may become not-ready after halt, see the example)"
  },
  {
   "property": "C40",
   "status": "partial",
   "theorems": [
    "Awk.Props.C40_by_zero",
    "Awk.Props.C40_division_partial",
    "Awk.Props.C40_mod_partial",
    "Awk.Props.C40_violated_min",
    "Awk.Props.C40_violated_mod"
   ],
   "note": "all numbers of any width for /; mod and /mod when the signs differ or the divisor is at most a quarter of the range; negations proved for mod with a large divisor and for the smallest number divided by -1"
  },
  {
   "property": "C41",
   "status": "partial",
   "theorems": [
    "Awk.Props.C41_output_partial",
    "Awk.Props.C41_violated",
    "Awk.Props.C41_violated_block",
    "Awk.Props.C41_words_partial"
   ],
   "note": "any sequence of uses with nonnegative rewinds, any initial size >= 1 and growth factor > 1 (exact product); the negation is proved for negative rewinds"
  },
  {
   "property": "C42",
   "status": "partial",
   "theorems": [
    "Awk.Props.C42_three_dimensions_violated",
    "Awk.Props.C42_two_dimensions_partial"
   ],
   "note": "one and two dimensions with any strides; the negation is proved for three dimensions"
  },
  {
   "property": "C43",
   "status": "partial",
   "theorems": [
    "Awk.Props.C43_accepted_partial",
    "Awk.Props.C43_broadcast_partial",
    "Awk.Props.C43_empty_violated",
    "Awk.Props.C43_hidden_violated",
    "Awk.Props.C43_inputs_violated",
    "Awk.Props.C43_nofields_violated",
    "Awk.Props.C43_size0_violated"
   ],
   "note": "Whatever broadcast_arrays returns is the broadcast inputs, for any number of inputs of any depth with lists, missing values, indexes and records (C43_broadcast_partial); flat arrays and lists of numbers of equal lengths are accepted (C43_accepted_partial). Missing: fixed-size lists, strings and unions. False for lists with hidden items, empty arrays, lists of size 0, records without fields, and an input mask is overwritten (C43_*_violated)."
  },
  {
   "property": "C44",
   "status": "partial",
   "theorems": [
    "Awk.Props.C44_imaginary_violated",
    "Awk.Props.C44_negative_violated",
    "Awk.Props.C44_truth_partial"
   ],
   "note": "values_astype to booleans for numbers that are not negative and not purely imaginary, in any layout (C44_truth_partial). False for negative numbers and for imaginary numbers (C44_negative_violated, C44_imaginary_violated)."
  },
  {
   "property": "C45",
   "status": "partial",
   "theorems": [
    "Awk.Props.C45_carry",
    "Awk.Props.C45_deep_copy_violated",
    "Awk.Props.C45_getitem_at_violated",
    "Awk.Props.C45_identities_partial",
    "Awk.Props.C45_masked_violated",
    "Awk.Props.C45_offsets_violated",
    "Awk.Props.C45_path",
    "Awk.Props.C45_record_violated",
    "Awk.Props.C45_regular_violated"
   ],
   "note": "setidentities() of every class: the identity of an item that belongs to the array is its row, positions and field names, items that belong to nothing get -1, and all contents have identities when no item is shared (C45_identities_partial); the path leads to the item in what to_list shows (C45_path); identities follow selected rows (C45_carry). False for fixed-size lists with a remainder, masked items in lists, empty lists outside the content, records with longer fields; identities[at] and deep copies are wrong (C45_*_violated)."
  },
  {
   "property": "C46",
   "status": "proved",
   "theorems": [
    "Awk.Props.C46_contiguous"
   ],
   "note": "Every shape with at least one dimension and every strides, as long as the items are inside of the buffer."
  },
  {
   "property": "C47",
   "status": "partial",
   "theorems": [
    "Awk.Props.C47_gather",
    "Awk.Props.C47_getitem_array_partial",
    "Awk.Props.C47_masked_records_violated",
    "Awk.Props.C47_range"
   ],
   "note": "Slices of valid arrays are valid: ranges (C47_range) and gathering (C47_gather) for every valid array, index arrays (C47_getitem_array_partial) for arrays with no mask directly over records. False for masks over records (C47_masked_records_violated)."
  },
  {
   "property": "C48",
   "status": "partial",
   "theorems": [
    "Awk.Props.C48_num_axis1",
    "Awk.Props.C48_num_partial",
    "Awk.Props.C48_num_sliced_violated"
   ],
   "note": "axis 1 unconditionally, deeper axes when offsets begin with zero; the negation is proved for a sliced array at axis 2; unions not modelled"
  },
  {
   "property": "C49",
   "status": "partial",
   "theorems": [
    "Awk.Props.C49_call_partial",
    "Awk.Props.C49_violated"
   ],
   "note": "the place and the loops are restored for every compiled program that does not use both exit and do; the negation is proved for the counter of a do loop"
  },
  {
   "property": "C50",
   "status": "partial",
   "theorems": [
    "Awk.Props.C50_read_partial",
    "Awk.Props.C50_violated_int64",
    "Awk.Props.C50_violated_uint32"
   ],
   "note": "int8, int16, int32, uint8, uint16 in both byte orders, any count; negations proved for uint32 and int64 (cut to 32 bits)"
  },
  {
   "property": "C51",
   "status": "partial",
   "theorems": [
    "Awk.Props.C51_empty_violated",
    "Awk.Props.C51_missing_violated",
    "Awk.Props.C51_three_arrays_violated",
    "Awk.Props.C51_two_arrays_partial"
   ],
   "note": "two arrays on any list class; C13_getitem_partial covers several arrays and ranges; negations proved for three arrays below a range, missing lists and empty index arrays"
  },
  {
   "property": "C52",
   "status": "partial",
   "theorems": [
    "Awk.Props.C52_number_partial",
    "Awk.Props.C52_partial",
    "Awk.Props.C52_violated"
   ],
   "note": "Names that begin with a letter (C52_partial), for every layout including unions. False for names that begin with a number (C52_violated)."
  },
  {
   "property": "C53",
   "status": "partial",
   "theorems": [
    "Awk.Props.C53_astype_partial",
    "Awk.Props.C53_matrix_violated"
   ],
   "note": "Every valid layout and every target type (C53_astype_partial), for numbers whose conversion is defined: fractions within the range of integer types, and the guard of C44 for booleans. NumpyArrays are one-dimensional (in two dimensions it is false: C53_matrix_violated); floating point rounding is not modelled."
  },
  {
   "property": "C54",
   "status": "partial",
   "theorems": [
    "Awk.Props.C54_toRegular_partial",
    "Awk.Props.C54_toRegular_violated"
   ],
   "note": "Proved for every shape whose dimensions after the second are not zero, any strides (C54_toRegular_partial); false for shape (2, 3, 0) (C54_toRegular_violated)."
  },
  {
   "property": "C55",
   "status": "proved",
   "theorems": [
    "Awk.Props.C55_getitem",
    "Awk.Props.C55_refused"
   ],
   "note": "Every shape with at least one dimension, any strides, integers, ranges, ellipsis, newaxis and index arrays of one shape. Slices with missing, jagged or field items are not modelled here; bounds and steps are not the reserved value kSliceNone. With index arrays separated by other items the dimensions stay at the place of the first one (NumPy moves them to the front)."
  },
  {
   "property": "C56",
   "status": "partial",
   "theorems": [
    "Awk.Props.C56_mask_partial"
   ],
   "note": "Ragged masks of any depth, under the same conditions on the array as C14_lists_partial; masks with missing values are not modelled."
  },
  {
   "property": "C57",
   "status": "partial",
   "theorems": [
    "Awk.Props.C57_nul_violated",
    "Awk.Props.C57_read_partial",
    "Awk.Props.C57_round_trip_partial",
    "Awk.Props.C57_uint64_violated",
    "Awk.Props.C57_written_partial"
   ],
   "note": "Tokens, not characters (RapidJSON is trusted). to_json of every valid array writes exactly the JSON of what to_list shows (C57_written_partial); from_json of any sequence of JSON values shows them (C57_read_partial); round trip (C57_round_trip_partial). False for integers of 2^63 and more and for keys with NUL (C57_uint64_violated, C57_nul_violated). Not modelled: NaN and infinity strings, maxdecimals, complex_record_fields when reading."
  },
  {
   "property": "C58",
   "status": "partial",
   "theorems": [
    "Awk.Props.C58_describes",
    "Awk.Props.C58_element_partial",
    "Awk.Props.C58_mask",
    "Awk.Props.C58_name_violated",
    "Awk.Props.C58_rows"
   ],
   "note": "Every valid array whose constructors were satisfied (dtypes hold the items, as many keys as fields), with any texts for types: its type describes what to_list shows (C58_describes); ranges with steps, 1-dimensional arrays of positions and masks keep the type (C58_rows, C58_mask); the type of array[i] is found in the type of the array (C58_element_partial), apart from the parameters of records, which an IndexedArray around them loses (C58_name_violated). Not modelled: NumpyArrays of more dimensions, lazy and partitioned arrays, types after field projection."
  },
  {
   "property": "C59",
   "status": "partial",
   "theorems": [
    "Awk.Props.C59_empty_violated",
    "Awk.Props.C59_fixed_violated",
    "Awk.Props.C59_keys_violated",
    "Awk.Props.C59_named_tuple_violated",
    "Awk.Props.C59_names_violated",
    "Awk.Props.C59_numbers_violated",
    "Awk.Props.C59_optional_violated",
    "Awk.Props.C59_round_trip_partial",
    "Awk.Props.C59_strings_violated",
    "Awk.Props.C59_text_injective_partial",
    "Awk.Props.C59_trailing_partial"
   ],
   "note": "Tokens, not characters; the generated LALR parser is replaced by one that looks at the next token (the tables were compared by hand on examples). Every type of the readable language is read back from its text, at any depth (C59_round_trip_partial), two such types with the same text are equal (C59_text_injective_partial), and text after the type raises (C59_trailing_partial). False for other types: words missing in the grammar (C59_numbers_violated), record names (C59_names_violated), named tuples, records without fields, (optional) fixed-size lists at the high level, fixed-size strings, field names with quotes or backslashes."
  },
  {
   "property": "C60",
   "status": "partial",
   "theorems": [
    "Awk.Props.C60_categories_violated",
    "Awk.Props.C60_empty_lists_violated",
    "Awk.Props.C60_masked_records_violated",
    "Awk.Props.C60_packed_partial",
    "Awk.Props.C60_strings_violated"
   ],
   "note": "Every valid array without unions, fixed-size lists of size zero, fixed-size strings and masks on records inside of lists is packed, shows the same values, has no unreachable data, and keeps its type if the rebuilt nodes have no parameters (C60_packed_partial). False otherwise: size zero raises (C60_empty_lists_violated), sliced lists of masked records raise (C60_masked_records_violated), parameters of fixed-size lists, indexed and option nodes are dropped (C60_strings_violated, C60_categories_violated). Unions are modelled but not in the theorem."
  },
  {
   "property": "C61",
   "status": "partial",
   "theorems": [
    "Awk.Props.C61_leading_zero_violated",
    "Awk.Props.C61_negative_violated",
    "Awk.Props.C61_nothing_violated",
    "Awk.Props.C61_records_violated",
    "Awk.Props.C61_remainder_violated",
    "Awk.Props.C61_size_axis_partial",
    "Awk.Props.C61_size_partial",
    "Awk.Props.C61_unflatten_axis_partial",
    "Awk.Props.C61_unflatten_partial"
   ],
   "note": "Non-negative axes; counts that are natural numbers or missing, or a positive integer. At axis 0 for every valid array that can be packed: the result is the division into the counts, and it raises exactly if the counts do not add up (C61_unflatten_partial, C61_size_partial). At deeper axes through any depth of variable-length and missing lists: the same, exactly if the counts fit (C61_unflatten_axis_partial, C61_size_axis_partial). False otherwise: records with fields of different depths raise (C61_records_violated), an integer drops the remainder at axis 0 (C61_remainder_violated), empty lists at the very beginning are lost at deeper axes (C61_leading_zero_violated), negative counts make invalid arrays (C61_negative_violated), an integer raises if all lists are empty (C61_nothing_violated). Missing: records, unions and fixed-size lists around the axis, negative axes."
  },
  {
   "property": "C62",
   "status": "partial",
   "theorems": [
    "Awk.Props.C62_is_none_partial",
    "Awk.Props.C62_negative_partial",
    "Awk.Props.C62_negative_violated",
    "Awk.Props.C62_nested_violated",
    "Awk.Props.C62_strings_violated",
    "Awk.Props.C62_too_deep_violated"
   ],
   "note": "For every valid array whose branches are at least axis lists deep, through lists, options, indexes, records and unions, except options over unions of options (C62_is_none_partial); negative axes of arrays with equally deep branches (C62_negative_partial). False otherwise: axes that are too deep return the array unchanged (C62_too_deep_violated), options over unions of options (C62_nested_violated), negative axes with records of different depths in lists (C62_negative_violated), strings become invalid (C62_strings_violated). Missing: multidimensional NumPy arrays."
  },
  {
   "property": "C63",
   "status": "partial",
   "theorems": [
    "Awk.Props.C63_nested_violated",
    "Awk.Props.C63_no_options_violated",
    "Awk.Props.C63_singletons_partial"
   ],
   "note": "For every valid array whose outermost options are all at one depth, through lists, indexes and unions (C63_singletons_partial). False for arrays without options, which are not changed (C63_no_options_violated), and for options over unions of options (C63_nested_violated). Missing: options below records."
  },
  {
   "property": "C64",
   "status": "partial",
   "theorems": [
    "Awk.Props.C64_from_regular",
    "Awk.Props.C64_hidden_violated",
    "Awk.Props.C64_negative_partial",
    "Awk.Props.C64_raises_partial",
    "Awk.Props.C64_to_regular_partial",
    "Awk.Props.C64_too_deep_violated"
   ],
   "note": "from_regular for every valid array and every positive axis (C64_from_regular); to_regular if all lists at the axis, reachable or not, have the same length (C64_to_regular_partial); it raises if two lists differ, for axis 1 (C64_raises_partial); negative axes of arrays with equally deep branches (C64_negative_partial). False: unreachable lists make to_regular raise (C64_hidden_violated), an axis that is too deep is not refused (C64_too_deep_violated)."
  },
  {
   "property": "C65",
   "status": "partial",
   "theorems": [
    "Awk.Props.C65_first_empty_violated",
    "Awk.Props.C65_flat",
    "Awk.Props.C65_groups",
    "Awk.Props.C65_last_empty_violated",
    "Awk.Props.C65_option_violated",
    "Awk.Props.C65_records_violated",
    "Awk.Props.C65_run_lengths_partial",
    "Awk.Props.C65_runs"
   ],
   "note": "Flat arrays of numbers or strings (C65_flat), any depth of lists through options, indexes, records and unions that are not directly around the innermost lists (C65_run_lengths_partial), the specification by runs is unique (C65_runs), and unflatten with the run lengths groups equal neighbours (C65_groups). False if the first or the last innermost list is empty: every array of lists whose last list is empty raises (C65_last_empty_violated), an empty first list divides the last run or raises (C65_first_empty_violated); options directly around the innermost lists raise (C65_option_violated); records of numbers and lists give an invalid array (C65_records_violated)."
  },
  {
   "property": "C66",
   "status": "partial",
   "theorems": [
    "Awk.Props.C66_limit_refused",
    "Awk.Props.C66_zip_categorical_violated",
    "Awk.Props.C66_zip_characters_violated",
    "Awk.Props.C66_zip_limit_partial",
    "Awk.Props.C66_zip_partial",
    "Awk.Props.C66_zip_strings_violated",
    "Awk.Props.C66_zip_unzip"
   ],
   "note": "With a depth limit, for arrays without strings and unions above it (C66_zip_limit_partial; limit 1 has no restriction); without a limit, for arrays without strings, categoricals and unions (C66_zip_partial); a limit below 1 is refused (C66_limit_refused); with limit 1, zip accepts all valid arrays of equal length, the rows are the records, and unzip returns the lists (C66_zip_unzip). False: zip of arrays of strings only is a single record (C66_zip_strings_violated); strings beside lists of their lengths are taken apart into characters (C66_zip_characters_violated); lists of categoricals are not combined item by item (C66_zip_categorical_violated). Missing: acceptance for deeper limits, unions, scalars."
  },
  {
   "property": "C67",
   "status": "partial",
   "theorems": [
    "Awk.Props.C67_mask_flat",
    "Awk.Props.C67_mask_partial",
    "Awk.Props.C67_mask_type"
   ],
   "note": "What mask returns, for arrays and masks of any depth of variable-length lists, options, indexes and records (C67_mask_partial); flat masks accept every valid array of their length, of any type (C67_mask_flat) and are refused if they are not booleans (C67_mask_type). Missing: fixed-size lists, strings and unions under masks with lists."
  },
  {
   "property": "C68",
   "status": "partial",
   "theorems": [
    "Awk.Props.C68_elementwise_partial",
    "Awk.Props.C68_flat",
    "Awk.Props.C68_lists_partial",
    "Awk.Props.C68_trailing_violated"
   ],
   "note": "For every function of numbers and every number of arrays of any depth of variable-length lists, options and indexes (C68_elementwise_partial); flat arrays of equal length are accepted (C68_flat), and so are flat arrays with lists of numbers whose lengths agree (C68_lists_partial). False: fixed-size lists with trailing unreachable data are refused (C68_trailing_violated). Missing: fixed-size lists, strings, unions, the type of the result, behaviors."
  },
  {
   "property": "C69",
   "status": "partial",
   "theorems": [
    "Awk.Props.C69_complex_violated",
    "Awk.Props.C69_where_partial"
   ],
   "note": "Flat conditions, arrays without unions and fixed-size lists that C17 covers: accepted, and every row is the chosen one (C69_where_partial). False: complex and real numbers (C69_complex_violated). Missing: conditions with lists or missing values (examples only), scalars, arrays of length 1."
  },
  {
   "property": "C70",
   "status": "partial",
   "theorems": [
    "Awk.Props.C70_duplicate_violated",
    "Awk.Props.C70_only_field_length_violated",
    "Awk.Props.C70_only_field_violated",
    "Awk.Props.C70_with_field_partial"
   ],
   "note": "Arrays of records or tuples and an array of the same length, if another field is left: accepted, and the rows are the records with the new field (C70_with_field_partial). False: if the only field is replaced, lists around the records are lost (C70_only_field_violated) and different lengths are accepted (C70_only_field_length_violated); without a name the new field may have the name of another (C70_duplicate_violated). Missing: records inside of other nodes (examples only), names that are paths."
  },
  {
   "property": "C71",
   "status": "partial",
   "theorems": [
    "Awk.Props.C71_cartesian",
    "Awk.Props.C71_invalid_violated",
    "Awk.Props.C71_nested_dict_violated",
    "Awk.Props.C71_nested_empty_violated",
    "Awk.Props.C71_nested_partial",
    "Awk.Props.C71_nested_some_violated"
   ],
   "note": "Without nested, for any number of valid arrays of any type and length (C71_cartesian); nested=True for arrays of which only the first may be empty (C71_nested_partial). False: an empty later array with nested=True (C71_nested_empty_violated), nested=True for every dict of arrays (C71_nested_dict_violated), nested=[0] for three arrays (C71_nested_some_violated), validity of the result for arrays with missing values (C71_invalid_violated). Missing: other values of nested, axis 1 and higher."
  },
  {
   "property": "C72",
   "status": "partial",
   "theorems": [
    "Awk.Props.C72_contains_partial",
    "Awk.Props.C72_flatten_partial",
    "Awk.Props.C72_no_fields_violated",
    "Awk.Props.C72_untrimmed_violated"
   ],
   "note": "All valid arrays whose record fields are as long as the record (C72_flatten_partial, C72_contains_partial). False: longer fields (C72_untrimmed_violated), records without fields (C72_no_fields_violated). Missing: partitioned and virtual arrays, multidimensional NumPy arrays, conversion of the numbers to a common type."
  },
  {
   "property": "C73",
   "status": "partial",
   "theorems": [
    "Awk.Props.C73_all_partial",
    "Awk.Props.C73_any_partial",
    "Awk.Props.C73_argmin_empty_violated",
    "Awk.Props.C73_argmin_part_violated",
    "Awk.Props.C73_argmin_partial",
    "Awk.Props.C73_argmin_partitions_violated",
    "Awk.Props.C73_argmin_record_violated",
    "Awk.Props.C73_count_partial",
    "Awk.Props.C73_initial_violated",
    "Awk.Props.C73_min_partial",
    "Awk.Props.C73_no_fields_violated",
    "Awk.Props.C73_reduce_partial",
    "Awk.Props.C73_sum_partial",
    "Awk.Props.C73_untrimmed_violated"
   ],
   "note": "Any commutative and associative reduction (C73_reduce_partial), with count, any, all and the sum of 64-bit integers as instances; min and max for any strict weak order (C73_min_partial); argmin and argmax without records and unions (C73_argmin_partial). False: records without fields (C73_no_fields_violated), fields longer than the record (C73_untrimmed_violated), initial (C73_initial_violated), argmin of no numbers (C73_argmin_empty_violated, C73_argmin_part_violated), of records (C73_argmin_record_violated) and of partitions (C73_argmin_partitions_violated). Missing: floating-point sums, NaN."
  },
  {
   "property": "C74",
   "status": "partial",
   "theorems": [
    "Awk.Props.C74_all_missing_violated",
    "Awk.Props.C74_from_categorical",
    "Awk.Props.C74_mask_violated",
    "Awk.Props.C74_records_violated",
    "Awk.Props.C74_to_categorical_partial",
    "Awk.Props.C74_union_violated"
   ],
   "note": "Lists of any depth, all representations of missing values, numbers and strings (C74_to_categorical_partial); from_categorical of every valid array (C74_from_categorical). False: records (C74_records_violated), unions of booleans and numbers (C74_union_violated), masks shorter than their content (C74_mask_violated), only missing values (C74_all_missing_violated). Missing: unions, arrays that are categorical already, NaN."
  },
  {
   "property": "C75",
   "status": "partial",
   "theorems": [
    "Awk.Props.C75_equal_partial",
    "Awk.Props.C75_missing_same_violated",
    "Awk.Props.C75_missing_violated",
    "Awk.Props.C75_records_violated"
   ],
   "note": "Distinct categories that are numbers or strings and missing values stored as -1 (C75_equal_partial); the comparison of the lists of categories (line 69-71) is a parameter. False: other negative numbers for missing values (C75_missing_violated, C75_missing_same_violated), records (C75_records_violated)."
  },
  {
   "property": "C76",
   "status": "partial",
   "theorems": [
    "Awk.Props.C76_empty_violated",
    "Awk.Props.C76_string_equal_partial"
   ],
   "note": "Variable-length strings or bytestrings, with the same length or a single string on one side (C76_string_equal_partial). False: an empty array compared with a single string raises (C76_empty_violated). Missing: fixed-size strings, strings with bytestrings, strings inside lists, options, records and unions."
  },
  {
   "property": "C77",
   "status": "partial",
   "theorems": [
    "Awk.Props.C77_axis0",
    "Awk.Props.C77_firsts_partial",
    "Awk.Props.C77_regular_violated",
    "Awk.Props.C77_singletons",
    "Awk.Props.C77_sliced_violated"
   ],
   "note": "Axis 1 of arrays of lists (C77_firsts_partial), axis 0 (C77_axis0) and the inverse of singletons (C77_singletons). False: lists of the fixed size 0 raise (C77_regular_violated); axis 2 of sliced arrays (C77_sliced_violated). Missing: lists that can be missing, deeper axes, partitioned arrays."
  },
  {
   "property": "C78",
   "status": "partial",
   "theorems": [
    "Awk.Props.C78_concatenate_lists_partial",
    "Awk.Props.C78_many_violated",
    "Awk.Props.C78_strings_violated",
    "Awk.Props.C78_unmasked_violated"
   ],
   "note": "Axis 1 of up to 127 arrays of lists without unions inside (C78_concatenate_lists_partial). False: UnmaskedArrays (C78_unmasked_violated), 128 arrays or more (C78_many_violated), strings at the axis (C78_strings_violated). Missing: missing lists, deeper axes, arrays that are broadcasted."
  },
  {
   "property": "C79",
   "status": "partial",
   "theorems": [
    "Awk.Props.C79_categorical_violated",
    "Awk.Props.C79_full_like_partial",
    "Awk.Props.C79_ones_like",
    "Awk.Props.C79_type_partial",
    "Awk.Props.C79_type_violated",
    "Awk.Props.C79_zeros_like"
   ],
   "note": "Values (C79_full_like_partial, C79_zeros_like, C79_ones_like) and types (C79_type_partial). False: the type of strings with a fixed size (C79_type_violated) and categories (C79_categorical_violated). Missing: numbers that a type does not have, the argument dtype, strings as the fill value."
  },
  {
   "property": "C80",
   "status": "proved",
   "theorems": [
    "Awk.Props.C80_twice",
    "Awk.Props.C80_without_parameters"
   ],
   "note": "C80_without_parameters and C80_twice."
  },
  {
   "property": "C81",
   "status": "partial",
   "theorems": [
    "Awk.Props.C81_accepts_partial",
    "Awk.Props.C81_empty_violated",
    "Awk.Props.C81_masked_record_violated",
    "Awk.Props.C81_missing_list_violated",
    "Awk.Props.C81_records_partial",
    "Awk.Props.C81_remainder_violated",
    "Awk.Props.C81_to_numpy_partial",
    "Awk.Props.C81_untrimmed_violated",
    "Awk.Props.C81_zeros_violated"
   ],
   "note": "Elements (C81_to_numpy_partial, C81_records_partial) and acceptance of rectangular arrays (C81_accepts_partial). False for empty lists (C81_empty_violated), strings that end with zeros (C81_zeros_violated), fixed-size lists with a remainder (C81_remainder_violated), records with missing fields (C81_masked_record_violated) or with longer fields (C81_untrimmed_violated), missing lists (C81_missing_list_violated). Missing: unions, NumpyArrays of several dimensions, lazy arrays, records inside lists."
  },
  {
   "property": "C82",
   "status": "partial",
   "theorems": [
    "Awk.Props.C82_accepts_partial",
    "Awk.Props.C82_accepts_strings",
    "Awk.Props.C82_from_numpy_partial",
    "Awk.Props.C82_masked_strings_violated",
    "Awk.Props.C82_regular_violated",
    "Awk.Props.C82_strings_violated"
   ],
   "note": "Elements (C82_from_numpy_partial) and acceptance (C82_accepts_partial, C82_accepts_strings). False for strings with a length of 0 in a later dimension (C82_strings_violated), for regulararray=True with such a length (C82_regular_violated) and for masked arrays of strings with nomask and several dimensions (C82_masked_strings_violated). Missing: structured arrays, arrays without dimensions, and arrays of numbers kept as one NumpyArray of several dimensions (see C54)."
  },
  {
   "property": "C83",
   "status": "partial",
   "theorems": [
    "Awk.Props.C83_empty_violated",
    "Awk.Props.C83_hidden_violated",
    "Awk.Props.C83_strings_astype_partial",
    "Awk.Props.C83_unreadable"
   ],
   "note": "Values (C83_strings_astype_partial) and errors (C83_unreadable). False for arrays without strings (C83_empty_violated) and with hidden strings (C83_hidden_violated). The conversion of one bytestring to a number by NumPy is a parameter. Missing: arrays of strings that are all empty, lazy arrays."
  },
  {
   "property": "C84",
   "status": "partial",
   "theorems": [
    "Awk.Props.C84_accepts",
    "Awk.Props.C84_axis_partial",
    "Awk.Props.C84_counts",
    "Awk.Props.C84_deep_violated",
    "Awk.Props.C84_even_violated",
    "Awk.Props.C84_fields_violated",
    "Awk.Props.C84_outer",
    "Awk.Props.C84_size"
   ],
   "note": "Soundness for axis=None (C84_size, C84_counts), for an axis (C84_axis_partial, C84_outer), and acceptance for lists of fixed size (C84_accepts). False: axes that do not exist (C84_deep_violated), records without fields (C84_fields_violated), lists of variable length that are all of the same length (C84_even_violated). Missing: NumPy arrays with several dimensions as leaves, lazy arrays."
  },
  {
   "property": "C85",
   "status": "partial",
   "theorems": [
    "Awk.Props.C85_argcombinations_partial",
    "Awk.Props.C85_axis0",
    "Awk.Props.C85_items",
    "Awk.Props.C85_refused",
    "Awk.Props.C85_regular_violated",
    "Awk.Props.C85_unknown_violated"
   ],
   "note": "Positive axes (C85_argcombinations_partial), axis 0 (C85_axis0), relation to combinations (C85_items), refusals (C85_refused). False for arrays of unknown type (C85_unknown_violated) and for fixed-size lists shorter than n (C85_regular_violated)."
  },
  {
   "property": "C86",
   "status": "partial",
   "theorems": [
    "Awk.Props.C86_indexed_violated",
    "Awk.Props.C86_named_record",
    "Awk.Props.C86_union_partial",
    "Awk.Props.C86_union_violated",
    "Awk.Props.C86_with_name_partial"
   ],
   "note": "Values and type (C86_with_name_partial, C86_named_record). A union at the top: values up to canon (C86_union_partial). The type is false with unions, which are simplified anywhere (C86_union_violated), and for IndexedArrays with a name of their own (C86_indexed_violated). Missing: unions inside of other arrays, single records, lazy arrays."
  },
  {
   "property": "C87",
   "status": "partial",
   "theorems": [
    "Awk.Props.C87_listed",
    "Awk.Props.C87_names_partial",
    "Awk.Props.C87_names_violated",
    "Awk.Props.C87_number_violated",
    "Awk.Props.C87_select_partial",
    "Awk.Props.C87_select_union_partial",
    "Awk.Props.C87_union",
    "Awk.Props.C87_unlisted_partial"
   ],
   "note": "Records have the listed fields (C87_listed), all of them without unions (C87_names_partial), unions list the common names (C87_union), listed names select (C87_select_partial, and C87_select_union_partial for unions of arrays whose fields can be merged), unlisted names raise (C87_unlisted_partial). False: fields of some alternatives are not listed (C87_names_violated), and names that begin with a digit select (C87_number_violated). Missing: selection from unions inside of lists, single records, lazy arrays."
  },
  {
   "property": "C88",
   "status": "partial",
   "theorems": [
    "Awk.Props.C88_argcartesian",
    "Awk.Props.C88_elements",
    "Awk.Props.C88_nested_dict_violated",
    "Awk.Props.C88_nested_empty_violated",
    "Awk.Props.C88_nested_partial"
   ],
   "note": "All choices of positions, and validity (C88_argcartesian), the same choices as those of cartesian (C88_elements), nested=True (C88_nested_partial). False for nested=True with empty arrays after the first (C88_nested_empty_violated) and with dicts (C88_nested_dict_violated). Missing: other axes."
  },
  {
   "property": "C89",
   "status": "partial",
   "theorems": [
    "Awk.Props.C89_mean_partial",
    "Awk.Props.C89_overflow_violated",
    "Awk.Props.C89_ptp_empty_violated",
    "Awk.Props.C89_ptp_identity_violated",
    "Awk.Props.C89_ptp_overflow_violated",
    "Awk.Props.C89_ptp_partial"
   ],
   "note": "Mean (C89_mean_partial) and range (C89_ptp_partial) if sum and range fit in 64 bits. False otherwise (C89_overflow_violated, C89_ptp_overflow_violated), and ptp raises without numbers (C89_ptp_empty_violated) and always with mask_identity=False (C89_ptp_identity_violated). Missing: weights, floating point and unsigned integers, other axes."
  },
  {
   "property": "C90",
   "status": "partial",
   "theorems": [
    "Awk.Props.C90_parameters",
    "Awk.Props.C90_record_name",
    "Awk.Props.C90_record_violated",
    "Awk.Props.C90_remove",
    "Awk.Props.C90_values"
   ],
   "note": "Parameters and nested arrays (C90_parameters), values and validity (C90_values, C90_record_name), removal (C90_remove), for arrays. False for single records, for which it raises (C90_record_violated). Missing: __array__ with values that the code does not know, and __record__ with values that are not strings; partitioned and lazy arrays."
  },
  {
   "property": "C91",
   "status": "partial",
   "theorems": [
    "Awk.Props.C91_array_partial",
    "Awk.Props.C91_distinct_partial",
    "Awk.Props.C91_generic_violated",
    "Awk.Props.C91_nul_violated",
    "Awk.Props.C91_round_trip_partial",
    "Awk.Props.C91_size_violated",
    "Awk.Props.C91_units_violated",
    "Awk.Props.C91_width_violated"
   ],
   "note": "Round trip at any depth (C91_round_trip_partial), in particular of the forms of arrays (C91_array_partial), and different forms have different JSON (C91_distinct_partial). False: sizes of 32 bits and more (C91_size_violated), names with NUL (C91_nul_violated), units of dates (C91_units_violated), the class ListOffsetArray without a width is undefined behaviour (C91_generic_violated), misspelled widths are read (C91_width_violated). Missing: VirtualForms, inner_shape, identities, the text of the JSON and of the parameters."
  },
  {
   "property": "C92",
   "status": "partial",
   "theorems": [
    "Awk.Props.C92_empty_violated",
    "Awk.Props.C92_pickle_partial",
    "Awk.Props.C92_record_partial",
    "Awk.Props.C92_size_zero_violated",
    "Awk.Props.C92_type_violated"
   ],
   "note": "Pickling and loading at any depth (C92_pickle_partial), also of a record (C92_record_partial), for arrays that can be packed (C60); fields of records come back in the order of their names; with the same type, if the nodes that packing rebuilds have no parameters. False: the content of arrays of no lists of fixed size (C92_empty_violated), lists of fixed size zero (C92_size_zero_violated), types of categories (C92_type_violated). Missing: unions, partitioned arrays, behaviors, the bytes of the pickle."
  },
  {
   "property": "C93",
   "status": "partial",
   "theorems": [
    "Awk.Props.C93_ddof_partial",
    "Awk.Props.C93_ddof_weights_violated",
    "Awk.Props.C93_equal_weights_partial",
    "Awk.Props.C93_first_partial",
    "Awk.Props.C93_mean_partial",
    "Awk.Props.C93_moment_lists_partial",
    "Awk.Props.C93_moment_partial",
    "Awk.Props.C93_moment_weights_violated",
    "Awk.Props.C93_moment_zero_violated",
    "Awk.Props.C93_var_partial",
    "Awk.Props.C93_weighted_mean_partial",
    "Awk.Props.C93_weighted_var_partial"
   ],
   "note": "Flat arrays of any length, in exact arithmetic: moments (C93_moment_partial, C93_first_partial), weighted means (C93_weighted_mean_partial), variances (C93_var_partial, C93_weighted_var_partial, C93_ddof_partial), equal weights (C93_equal_weights_partial). False: equal weights in moment (C93_moment_weights_violated) and in var with ddof (C93_ddof_weights_violated), moment(x, 0) (C93_moment_zero_violated). Arrays of lists: moments (C93_moment_lists_partial). Nested arrays of any depth, with records, unions and missing values: the mean without weights (C93_mean_partial). Missing: other nested arrays, an axis, rounding, infinities and NaN."
  },
  {
   "property": "C94",
   "status": "partial",
   "theorems": [
    "Awk.Props.C94_covar_partial",
    "Awk.Props.C94_covar_var_partial",
    "Awk.Props.C94_exact_partial",
    "Awk.Props.C94_least_squares_partial",
    "Awk.Props.C94_no_weights_partial"
   ],
   "note": "Flat arrays of any length, in exact arithmetic: least squares with weights (C94_least_squares_partial) and without (C94_no_weights_partial), points on a line (C94_exact_partial), covariances (C94_covar_partial, C94_covar_var_partial). Missing: nested arrays, an axis, rounding, infinities and NaN, the errors of the fit."
  },
  {
   "property": "C95",
   "status": "partial",
   "theorems": [
    "Awk.Props.C95_nan_to_num_partial",
    "Awk.Props.C95_strings_violated"
   ],
   "note": "All valid arrays without strings, at any depth, for any replacement of numbers, with a valid result (C95_nan_to_num_partial). False for strings: the result is not valid (C95_strings_violated). Missing: the replacement that NumPy makes of NaN and infinities is a parameter, lazy and partitioned arrays."
  },
  {
   "property": "C96",
   "status": "partial",
   "theorems": [
    "Awk.Props.C96_flat_partial",
    "Awk.Props.C96_isclose_partial",
    "Awk.Props.C96_self_partial"
   ],
   "note": "Whatever isclose returns for arrays with lists of any length, records and missing values at any depth (C96_isclose_partial); flat arrays are accepted (C96_flat_partial), and each is close to itself (C96_self_partial). Missing: fixed-size lists, strings, unions, which nested arrays are accepted, rounding, infinities and NaN."
  }
 ]
}