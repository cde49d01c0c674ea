{"id": "C01", "title": "ArrayBuilder round trip", "statement": "If a user fills a fresh ak.ArrayBuilder with the commands that spell out a sequence of values (None, booleans, integers, strings, nested lists, tuples, records, in any mixture), then no command raises, len(builder) is the number of values, and to_list(builder.snapshot()) gives back exactly those values in order; the only licensed changes are that integers sharing a node with reals come back as reals and that records of one type gain missing fields as None.", "quantifier": "every finite sequence of finite nested values, of any depth, width and mixture of types", "why_tests_cant": "the builder rewrites its own node tree on the fly (unknown -> leaf -> option -> union ...), so every history of types is a different program; tests can only sample histories", "anchors": ["src/libawkward/builder/ArrayBuilder.cpp:ArrayBuilder", "src/libawkward/builder/UnknownBuilder.cpp:UnknownBuilder", "src/libawkward/builder/OptionBuilder.cpp:OptionBuilder", "src/libawkward/builder/UnionBuilder.cpp:UnionBuilder", "src/libawkward/builder/ListBuilder.cpp:ListBuilder", "src/libawkward/builder/TupleBuilder.cpp:TupleBuilder", "src/libawkward/builder/RecordBuilder.cpp:RecordBuilder", "src/libawkward/builder/Int64Builder.cpp", "src/libawkward/builder/Float64Builder.cpp", "src/libawkward/builder/StringBuilder.cpp"]}
{"id": "C02", "title": "Builder snapshots are immutable", "statement": "An array obtained from builder.snapshot() keeps the same length and the same elements no matter what is appended to (or cleared from) the builder afterwards, even though the snapshot shares memory with the builder.", "quantifier": "every buffer state, every later sequence of append and clear operations, every initial size and growth factor > 1", "why_tests_cant": "aliasing bugs only show for particular interleavings of snapshot, append and reallocation", "anchors": ["src/libawkward/builder/GrowableBuffer.cpp:GrowableBuffer::append", "src/libawkward/builder/GrowableBuffer.cpp:GrowableBuffer::set_reserved", "src/libawkward/builder/GrowableBuffer.cpp:GrowableBuffer::clear", "include/awkward/builder/GrowableBuffer.h"]}
{"id": "C03", "title": "Growing a builder buffer never loses data or writes out of bounds", "statement": "For every initial reservation >= 1 and growth factor > 1, any sequence of appends stores exactly the appended items in order, and every write lands inside the allocated block.", "quantifier": "all initial sizes, growth factors and append sequences", "why_tests_cant": "the out-of-bounds write happens only when ceil(reserved*resize) fails to exceed the length, which depends on the whole growth history", "anchors": ["src/libawkward/builder/GrowableBuffer.cpp:GrowableBuffer::append", "src/libawkward/builder/GrowableBuffer.cpp:GrowableBuffer::set_reserved"]}
{"id": "C04", "title": "A cleared builder behaves like a fresh one", "statement": "After builder.clear(), len(builder) is 0 and filling the builder again with any data gives the same array as filling a builder of the same node types from scratch.", "quantifier": "every builder state and every refill", "why_tests_cant": "clear() is implemented separately in 12 node classes and its effect only shows in the next fill", "anchors": ["src/libawkward/builder/RecordBuilder.cpp:RecordBuilder::clear", "src/libawkward/builder/TupleBuilder.cpp:TupleBuilder::clear", "src/libawkward/builder/ListBuilder.cpp:ListBuilder::clear", "src/libawkward/builder/UnionBuilder.cpp:UnionBuilder::clear", "src/libawkward/builder/OptionBuilder.cpp:OptionBuilder::clear"]}
{"id": "C05", "title": "Malformed builder commands raise and never corrupt", "statement": "A closing or addressing command that does not match an open container (end_list without begin_list, field outside a record, index outside 0..n-1 of a tuple ...) raises an error; it never produces an array in which other values are lost or altered, and never touches memory outside the builder.", "quantifier": "every command sequence, well formed or not", "why_tests_cant": "the space of malformed sequences is unbounded", "anchors": ["src/libawkward/builder/TupleBuilder.cpp:TupleBuilder::index", "src/libawkward/builder/ListBuilder.cpp:ListBuilder::endlist", "src/libawkward/builder/RecordBuilder.cpp:RecordBuilder::field", "src/libawkward/builder/OptionBuilder.cpp:OptionBuilder::endlist"]}
{"id": "C06", "title": "Text and bytes stay distinct in a builder", "statement": "Appending str and bytes objects to the same builder gives an array whose to_list has str where str was appended and bytes where bytes was appended.", "quantifier": "every interleaving of string and bytestring appends", "why_tests_cant": "depends on which one came first and whether a union node already exists", "anchors": ["src/libawkward/builder/StringBuilder.cpp:StringBuilder::string", "src/libawkward/builder/UnionBuilder.cpp:UnionBuilder::string"]}
{"id": "C07", "title": "A valid array can always be read", "statement": "If the validity check of an array reports no error, then every element of the array can be read to full depth: no read goes outside a buffer and no error is raised.", "quantifier": "every layout tree of every node type and depth", "why_tests_cant": "an out-of-bounds read of a valid-looking array is undefined behaviour that tests may not notice", "anchors": ["src/libawkward/array/ListArray.cpp:validityerror", "src/libawkward/array/ListOffsetArray.cpp:validityerror", "src/libawkward/array/IndexedArray.cpp:validityerror", "src/libawkward/array/UnionArray.cpp:validityerror", "src/libawkward/array/RecordArray.cpp:validityerror", "src/libawkward/array/RegularArray.cpp:validityerror", "src/libawkward/array/ByteMaskedArray.cpp:validityerror", "src/libawkward/array/BitMaskedArray.cpp:validityerror", "src/cpu-kernels/awkward_ListArray_validity.cpp", "src/cpu-kernels/awkward_IndexedArray_validity.cpp", "src/cpu-kernels/awkward_UnionArray_validity.cpp"]}
{"id": "C08", "title": "array[i] is Python list indexing", "statement": "For every integer i, array[i] equals to_list(array)[i], counting negative i from the end, and raises exactly when i is out of range.", "quantifier": "every layout and every integer", "why_tests_cant": "twelve node classes times boundary conditions at every nesting level", "anchors": ["src/libawkward/array/NumpyArray.cpp:getitem_at", "src/libawkward/array/ListArray.cpp:getitem_at", "src/libawkward/array/ListOffsetArray.cpp:getitem_at", "src/libawkward/array/RegularArray.cpp:getitem_at", "src/libawkward/array/IndexedArray.cpp:getitem_at", "src/libawkward/array/UnionArray.cpp:getitem_at", "src/libawkward/array/RecordArray.cpp:getitem_at"]}
{"id": "C09", "title": "array[a:b] is Python list slicing", "statement": "For all a, b (present or absent, negative or beyond the ends), to_list(array[a:b]) equals to_list(array)[a:b]; slicing shares buffers but never changes elements.", "quantifier": "every layout, every pair of bounds", "why_tests_cant": "slices are views with shifted offsets, so mistakes show only in compositions of views", "anchors": ["src/libawkward/array/ListOffsetArray.cpp:getitem_range", "src/libawkward/array/BitMaskedArray.cpp:getitem_range", "src/libawkward/array/RegularArray.cpp:getitem_range", "src/cpu-kernels/kernel-utils.cpp:awkward_regularize_rangeslice"]}
{"id": "C10", "title": "Range slices follow Python's slice rules", "statement": "For every length and every start/stop/step with step != 0, the positions selected are exactly those of Python's range(*slice(start, stop, step).indices(length)), and all of them lie inside the array.", "quantifier": "all integers start, stop, step != 0 and all lengths", "why_tests_cant": "the arithmetic of negative steps and out-of-range bounds has many boundaries", "anchors": ["src/cpu-kernels/kernel-utils.cpp:awkward_regularize_rangeslice", "src/cpu-kernels/awkward_ListArray_getitem_next_range.cpp", "src/cpu-kernels/awkward_ListArray_getitem_next_range_carrylength.cpp"]}
{"id": "C11", "title": "array[[i, j, k]] picks elements", "statement": "Selecting with an integer array gives the elements at those positions, in that order, with repetition, negative positions counted from the end; a position out of range raises instead of reading other memory.", "quantifier": "every layout, every integer array", "why_tests_cant": "gathers are implemented per node type by index arithmetic on buffers", "anchors": ["src/libawkward/array/IndexedArray.cpp:carry", "src/libawkward/array/ListArray.cpp:carry", "src/libawkward/array/RegularArray.cpp:carry", "src/libawkward/array/RecordArray.cpp:carry", "src/libawkward/array/UnionArray.cpp:carry", "src/cpu-kernels/awkward_regularize_arrayslice.cpp", "src/cpu-kernels/awkward_RegularArray_getitem_carry.cpp", "src/cpu-kernels/awkward_ListArray_getitem_carry.cpp", "src/cpu-kernels/awkward_IndexedArray_getitem_carry.cpp", "src/cpu-kernels/awkward_Index_carry.cpp"]}
{"id": "C12", "title": "array[mask] filters", "statement": "Selecting with a boolean array of the same length keeps exactly the elements whose mask entry is true, in order.", "quantifier": "every layout, every boolean array", "why_tests_cant": "counting pass and filling pass must agree for every mask", "anchors": ["src/cpu-kernels/awkward_NumpyArray_getitem_boolean_nonzero.cpp", "src/cpu-kernels/awkward_NumpyArray_getitem_boolean_numtrue.cpp"]}
{"id": "C13", "title": "Multidimensional integer/range slices act level by level", "statement": "array[s0, s1, ...] with integers and ranges equals applying s0 to the outer list, s1 to each selected inner list, and so on; an integer that is out of range in any selected inner list raises.", "quantifier": "every nested list layout, every tuple of integers and ranges", "why_tests_cant": "recursion over both the slice tuple and the layout tree", "anchors": ["src/libawkward/Content.cpp:Content::getitem", "src/libawkward/array/ListArray.cpp:getitem_next", "src/libawkward/array/ListOffsetArray.cpp:getitem_next", "src/libawkward/array/RegularArray.cpp:getitem_next", "src/cpu-kernels/awkward_ListArray_getitem_next_at.cpp", "src/cpu-kernels/awkward_ListArray_getitem_next_range.cpp", "src/cpu-kernels/awkward_RegularArray_getitem_next_at.cpp", "src/cpu-kernels/awkward_RegularArray_getitem_next_range.cpp"]}
{"id": "C14", "title": "Jagged slices select per list", "statement": "array[index] with a ragged integer array selects, for each outer position i, the elements of array[i] at positions index[i] (negative counted from the end of array[i]); mismatched outer lengths or out-of-range positions raise.", "quantifier": "every ragged array and every ragged index", "why_tests_cant": "per-list offsets arithmetic over unbounded raggedness", "anchors": ["src/cpu-kernels/awkward_ListArray_getitem_jagged_apply.cpp", "src/cpu-kernels/awkward_ListArray_getitem_jagged_carrylen.cpp", "src/cpu-kernels/awkward_ListArray_getitem_jagged_descend.cpp", "src/libawkward/array/ListArray.cpp:getitem_next_jagged"]}
{"id": "C15", "title": "All encodings of missing data mean the same", "statement": "Converting between the bit-masked, byte-masked, indexed-option and unmasked encodings never changes to_list(array) nor which elements are None (for both mask polarities and both bit orders).", "quantifier": "all masks, polarities, bit orders and lengths, including lengths that are not multiples of 8", "why_tests_cant": "bit order and polarity combinations over unbounded masks", "anchors": ["src/libawkward/array/BitMaskedArray.cpp:toByteMaskedArray", "src/libawkward/array/BitMaskedArray.cpp:toIndexedOptionArray64", "src/libawkward/array/ByteMaskedArray.cpp:toIndexedOptionArray64", "src/libawkward/array/UnmaskedArray.cpp:toIndexedOptionArray64", "src/cpu-kernels/awkward_BitMaskedArray_to_ByteMaskedArray.cpp", "src/cpu-kernels/awkward_BitMaskedArray_to_IndexedOptionArray.cpp", "src/cpu-kernels/awkward_ByteMaskedArray_toIndexedOptionArray.cpp"]}
{"id": "C16", "title": "Simplifying nested option/index nodes preserves values", "statement": "simplify() on nested option-type or indexed nodes gives an array with at most one such node in a row and the same to_list.", "quantifier": "every nesting of indexed, option and masked nodes", "why_tests_cant": "compositions of index maps over unbounded depth", "anchors": ["src/libawkward/array/IndexedArray.cpp:simplify_optiontype", "src/libawkward/array/ByteMaskedArray.cpp:simplify_optiontype", "src/libawkward/array/BitMaskedArray.cpp:simplify_optiontype", "src/libawkward/array/UnmaskedArray.cpp:simplify_optiontype", "src/cpu-kernels/awkward_IndexedArray_simplify.cpp"]}
{"id": "C17", "title": "Simplifying unions preserves values", "statement": "simplify() on a union array (flattening nested unions and merging mergeable alternatives) gives an array with the same to_list (numbers compared as numbers).", "quantifier": "every union layout, any number and nesting of alternatives", "why_tests_cant": "tags and indexes are rewritten in several passes whose interaction depends on the whole layout", "anchors": ["src/libawkward/array/UnionArray.cpp:simplify_uniontype", "src/cpu-kernels/awkward_UnionArray_simplify.cpp", "src/cpu-kernels/awkward_UnionArray_simplify_one.cpp"]}
{"id": "C18", "title": "Concatenation appends", "statement": "to_list of the merge/concatenate of arrays (axis=0) is the concatenation of their to_lists (numbers compared as numbers).", "quantifier": "all pairs and lists of arrays of mergeable types", "why_tests_cant": "every pair of node classes has its own merge code", "anchors": ["src/libawkward/array/ListArray.cpp:mergemany", "src/libawkward/array/IndexedArray.cpp:mergemany", "src/libawkward/array/NumpyArray.cpp:mergemany", "src/libawkward/array/RecordArray.cpp:mergemany", "src/libawkward/array/UnionArray.cpp:mergemany", "src/libawkward/Content.cpp:Content::merging_strategy", "src/libawkward/Content.cpp:Content::merge_as_union", "src/cpu-kernels/awkward_ListArray_fill.cpp", "src/cpu-kernels/awkward_IndexedArray_fill.cpp", "src/cpu-kernels/awkward_UnionArray_filltags.cpp"]}
{"id": "C19", "title": "flatten concatenates one level and num measures it", "statement": "flatten(array, axis=1) is the concatenation of the inner lists with None treated as an empty list; num(array, axis=1) gives the inner lengths; unflatten(flatten(array), num(array)) gives the array back.", "quantifier": "every list layout", "why_tests_cant": "round trip over unbounded raggedness and over all list encodings", "anchors": ["src/libawkward/array/ListOffsetArray.cpp:offsets_and_flattened", "src/libawkward/array/ListArray.cpp:offsets_and_flattened", "src/libawkward/array/IndexedArray.cpp:offsets_and_flattened", "src/cpu-kernels/awkward_ListArray_num.cpp", "src/cpu-kernels/awkward_IndexedArray_flatten_none2empty.cpp", "src/cpu-kernels/awkward_ListArray_compact_offsets.cpp", "src/cpu-kernels/awkward_ListArray_broadcast_tooffsets.cpp", "src/awkward/operations/structure.py:unflatten"]}
{"id": "C20", "title": "All encodings of lists mean the same", "statement": "Rewriting a list array between regular, starts/stops and offsets encodings (to compact offsets, to regular when all lengths agree, and back) never changes to_list; to_regular raises exactly when two inner lengths differ.", "quantifier": "every list layout", "why_tests_cant": "offset arithmetic for arbitrary, overlapping, out-of-order starts/stops", "anchors": ["src/libawkward/array/ListArray.cpp:toListOffsetArray64", "src/libawkward/array/ListOffsetArray.cpp:toRegularArray", "src/libawkward/array/RegularArray.cpp:toListOffsetArray64", "src/libawkward/array/ListOffsetArray.cpp:compact_offsets64", "src/cpu-kernels/awkward_ListOffsetArray_toRegularArray.cpp", "src/cpu-kernels/awkward_ListOffsetArray_compact_offsets.cpp", "src/cpu-kernels/awkward_RegularArray_compact_offsets.cpp"]}
{"id": "C21", "title": "local_index numbers elements within each list", "statement": "local_index(array, axis=1)[i] is [0, 1, ..., n_i - 1] where n_i is the length of array[i]; local_index at axis=0 numbers the whole array.", "quantifier": "every list layout", "why_tests_cant": "must hold for every raggedness and encoding", "anchors": ["src/cpu-kernels/awkward_ListArray_localindex.cpp", "src/cpu-kernels/awkward_RegularArray_localindex.cpp", "src/cpu-kernels/awkward_localindex.cpp", "src/libawkward/Content.cpp:Content::localindex_axis0"]}
{"id": "C22", "title": "pad_none pads and clips", "statement": "pad_none(array, n, axis) appends None to every list shorter than n and leaves the others alone; with clip=True every list comes out with length exactly n, being its first n elements padded with None.", "quantifier": "every layout, every target n", "why_tests_cant": "two-pass kernels (size, then fill) must agree for every raggedness", "anchors": ["src/libawkward/Content.cpp:Content::rpad_axis0", "src/libawkward/array/ListOffsetArray.cpp:rpad", "src/libawkward/array/RegularArray.cpp:rpad", "src/libawkward/array/ListArray.cpp:rpad", "src/cpu-kernels/awkward_ListOffsetArray_rpad_axis1.cpp", "src/cpu-kernels/awkward_ListOffsetArray_rpad_length_axis1.cpp", "src/cpu-kernels/awkward_ListOffsetArray_rpad_and_clip_axis1.cpp", "src/cpu-kernels/awkward_ListArray_rpad_axis1.cpp", "src/cpu-kernels/awkward_index_rpad_and_clip_axis0.cpp", "src/cpu-kernels/awkward_RegularArray_rpad_and_clip_axis1.cpp"]}
{"id": "C23", "title": "fill_none replaces exactly the missing values", "statement": "fill_none(array, v) has the same length, has v where array had None, and leaves every other element unchanged.", "quantifier": "every option layout and value", "why_tests_cant": "goes through an intermediate union whose tags/index are rewritten", "anchors": ["src/libawkward/array/IndexedArray.cpp:fillna", "src/libawkward/array/ByteMaskedArray.cpp:fillna", "src/cpu-kernels/awkward_UnionArray_fillna.cpp"]}
{"id": "C24", "title": "combinations enumerates every choice exactly once", "statement": "combinations(array, n) lists, for every inner list, each n-element choice in lexicographic order exactly once (strictly increasing positions without replacement, non-decreasing with replacement), and the precomputed output size equals the number of tuples written.", "quantifier": "every n >= 1, both replacement modes, every raggedness", "why_tests_cant": "counting formula versus recursive enumeration for unbounded n and sizes; a mismatch is a buffer overrun", "anchors": ["src/cpu-kernels/kernel-utils.cpp:awkward_ListArray_combinations_step", "src/cpu-kernels/awkward_ListArray_combinations.cpp", "src/cpu-kernels/awkward_ListArray_combinations_length.cpp", "src/cpu-kernels/awkward_RegularArray_combinations.cpp", "src/libawkward/Content.cpp:Content::combinations_axis0"]}
{"id": "C25", "title": "Reducers at the innermost axis reduce each list", "statement": "sum/prod/count/count_nonzero/any/all/min/max(array, axis=-1) give, for each inner list, the reduction of exactly that list's elements (identity for empty lists).", "quantifier": "every ragged array", "why_tests_cant": "scatter-accumulate over a parents array; each list must receive its own elements and no others", "anchors": ["src/cpu-kernels/awkward_reduce_sum.cpp", "src/cpu-kernels/awkward_reduce_prod.cpp", "src/cpu-kernels/awkward_reduce_count_64.cpp", "src/cpu-kernels/awkward_reduce_countnonzero.cpp", "src/cpu-kernels/awkward_reduce_sum_bool.cpp", "src/cpu-kernels/awkward_reduce_prod_bool.cpp", "src/cpu-kernels/awkward_reduce_min.cpp", "src/cpu-kernels/awkward_reduce_max.cpp", "src/cpu-kernels/awkward_ListOffsetArray_reduce_local_nextparents_64.cpp", "src/cpu-kernels/awkward_ListOffsetArray_reduce_local_outoffsets_64.cpp", "src/libawkward/array/ListOffsetArray.cpp:reduce_next"]}
{"id": "C26", "title": "Reducers at an outer axis reduce across lists", "statement": "Reducing a ragged array over an outer axis combines the elements at equal inner position k of all lists in a group that are long enough; the result list is as long as the longest list of the group.", "quantifier": "every ragged array of depth >= 2", "why_tests_cant": "a transposition of raggedness computed with scratch buffers; correctness depends on all lengths at once", "anchors": ["src/cpu-kernels/awkward_ListOffsetArray_reduce_nonlocal_preparenext_64.cpp", "src/cpu-kernels/awkward_ListOffsetArray_reduce_nonlocal_maxcount_offsetscopy_64.cpp", "src/cpu-kernels/awkward_ListOffsetArray_reduce_nonlocal_outstartsstops_64.cpp", "src/cpu-kernels/awkward_ListOffsetArray_reduce_nonlocal_findgaps_64.cpp", "src/libawkward/array/ListOffsetArray.cpp:reduce_next"]}
{"id": "C27", "title": "argmin/argmax return the first extremal position", "statement": "argmin/argmax(array, axis=-1) is, per list, the position within that list of its first minimal/maximal element, and None for an empty list.", "quantifier": "every ragged array", "why_tests_cant": "global positions are converted to local ones in a separate pass", "anchors": ["src/cpu-kernels/awkward_reduce_argmin.cpp", "src/cpu-kernels/awkward_reduce_argmax.cpp", "src/cpu-kernels/awkward_reduce_argmin_complex.cpp", "src/cpu-kernels/awkward_reduce_argmax_complex.cpp", "src/cpu-kernels/awkward_NumpyArray_reduce_adjust_starts_64.cpp"]}
{"id": "C28", "title": "sort sorts each list and argsort agrees", "statement": "sort(array, axis=-1) gives in every list a reordering of that list that is ascending (or descending); array[argsort(array)] == sort(array); with stable=True equal elements keep their order.", "quantifier": "every ragged array, both directions", "why_tests_cant": "permutation and order must hold for all inputs, not samples", "anchors": ["src/cpu-kernels/awkward_sort.cpp", "src/cpu-kernels/awkward_argsort.cpp", "src/cpu-kernels/awkward_quick_sort.cpp", "src/cpu-kernels/awkward_quick_argsort.cpp", "src/cpu-kernels/awkward_sorting_ranges.cpp", "src/cpu-kernels/awkward_sorting_ranges_length.cpp", "src/libawkward/array/NumpyArray.cpp:sort_next"]}
{"id": "C29", "title": "Sorting strings keeps the strings", "statement": "Sorting an array of strings gives exactly the same strings, reordered.", "quantifier": "every array of strings", "why_tests_cant": "fails only for arrays with more than 255 bytes of text", "anchors": ["src/cpu-kernels/awkward_NumpyArray_sort_asstrings_uint8.cpp", "src/cpu-kernels/awkward_ListOffsetArray_argsort_strings.cpp"]}
{"id": "C30", "title": "Uniqueness tests tell the truth", "statement": "is_unique answers true exactly when no two elements are equal.", "quantifier": "every array, partitioned or not", "why_tests_cant": "depends on the position of the duplicate pair among all pairs", "anchors": ["src/cpu-kernels/awkward_NumpyArray_subrange_equal.cpp", "src/cpu-kernels/awkward_unique.cpp", "src/awkward/partition.py:PartitionedArray.is_unique"]}
{"id": "C31", "title": "Fields commute with rows", "statement": "array['x'][i] == array[i]['x'] for every record array, and the same for ranges, integer-array and boolean selections; projecting fields never changes the values of the kept fields.", "quantifier": "every record layout, nested under lists and options", "why_tests_cant": "row operations are pushed lazily through record nodes", "anchors": ["src/libawkward/array/RecordArray.cpp:getitem_field", "src/libawkward/array/RecordArray.cpp:carry", "src/libawkward/array/ListOffsetArray.cpp:getitem_field", "src/libawkward/array/IndexedArray.cpp:getitem_field"]}
{"id": "C32", "title": "Partitioning is invisible: element access", "statement": "For a partitioned array, array[i] and iteration give the same as for the unpartitioned array, whatever the partition sizes (including empty partitions).", "quantifier": "all partition counts and sizes, all indices", "why_tests_cant": "depends on every way of cutting the array", "anchors": ["src/libawkward/partition/IrregularlyPartitionedArray.cpp:partitionid_index_at", "src/libawkward/partition/PartitionedArray.cpp:getitem_at", "src/awkward/partition.py:IrregularlyPartitionedArray"]}
{"id": "C33", "title": "Partitioning is invisible: slices", "statement": "For a partitioned array, array[start:stop:step] gives the same elements as slicing the unpartitioned array, for positive and negative steps, whatever the partition sizes.", "quantifier": "all partition sizes, all start/stop/step with step != 0", "why_tests_cant": "a phase offset is carried across partition boundaries; errors need particular size/step combinations", "anchors": ["src/libawkward/partition/PartitionedArray.cpp:getitem_range_nowrap"]}
{"id": "C34", "title": "Repartitioning preserves the data", "statement": "repartition(stops) gives an array with the requested partition boundaries and the same elements in the same order; it raises when the total length differs.", "quantifier": "all old and new partition boundaries", "why_tests_cant": "two cursors advance at different rates over both partitionings", "anchors": ["src/libawkward/partition/IrregularlyPartitionedArray.cpp:repartition", "src/awkward/partition.py:partition_as", "src/awkward/partition.py:IrregularlyPartitionedArray.toPartitioned"]}
{"id": "C35", "title": "Lazy arrays are transparent", "statement": "Reading a virtual (lazy) array, slicing it lazily and then reading, or reading it after its cache entry was evicted or replaced by the cache policy gives the same elements as materialising it first; the generator's length and form promises are checked, not assumed.", "quantifier": "every sequence of lazy operations, materialisations and cache evictions", "why_tests_cant": "depends on the cache state at each step of the history", "anchors": ["src/libawkward/array/VirtualArray.cpp:array", "src/libawkward/array/VirtualArray.cpp:getitem_range", "src/libawkward/virtual/ArrayGenerator.cpp:generate_and_check", "src/libawkward/virtual/ArrayCache.cpp"]}
{"id": "C36", "title": "Buffer serialisation round trip", "statement": "from_buffers(*to_buffers(array)) gives an array with the same to_list and the same form, for any partitioning and key names.", "quantifier": "every layout tree", "why_tests_cant": "form keys, buffer lengths and per-node encodings must agree for every tree", "anchors": ["src/awkward/operations/convert.py:to_buffers", "src/awkward/operations/convert.py:from_buffers"]}
{"id": "C37", "title": "Forth: pausing, stepping and resuming do not change the result", "statement": "Running an AwkwardForth program to the end gives the same stack, variables, output buffers, input positions and error as executing it with any interleaving of single steps and resumes.", "quantifier": "every compiled program, every input, every schedule of step/pause/resume calls", "why_tests_cant": "the number of schedules is unbounded", "anchors": ["src/libawkward/forth/ForthMachine.cpp:internal_run", "src/libawkward/forth/ForthMachine.cpp:step", "src/libawkward/forth/ForthMachine.cpp:resume"]}
{"id": "C38", "title": "Forth: the machine never leaves its buffers", "statement": "While running any compiled program on any input the data stack stays between empty and its maximum depth, calls never nest deeper than the maximum, and reads never go beyond the input; each violation becomes the documented error.", "quantifier": "every program, input, and run length", "why_tests_cant": "memory safety over unbounded executions", "anchors": ["src/libawkward/forth/ForthMachine.cpp:internal_run", "src/libawkward/forth/ForthInputBuffer.cpp:read"]}
{"id": "C39", "title": "Forth: errors stop the machine and are reported once and for all", "statement": "Once a run raises an error, the machine stays in the error state and refuses step/resume/call until it is reset, and reset restores the initial state.", "quantifier": "every program and every error", "why_tests_cant": "depends on the history", "anchors": ["src/libawkward/forth/ForthMachine.cpp:reset", "src/libawkward/forth/ForthMachine.cpp:step", "src/libawkward/forth/ForthMachine.cpp:maybe_throw"]}
{"id": "C40", "title": "Forth: arithmetic words compute floor division and modulo", "statement": "For all stack values, `/` and `mod` satisfy a = b*(a/b) + (a mod b) with the remainder having the sign of b, and /mod agrees with both; division by zero raises the documented error.", "quantifier": "all pairs of integers", "why_tests_cant": "sign combinations over all integers", "anchors": ["src/libawkward/forth/ForthMachine.cpp:internal_run"]}
{"id": "C41", "title": "Forth: output buffers record exactly what was written", "statement": "An output buffer contains exactly the sequence of written values, with dup repeating the last value, rewind removing the last n, and += appending the running total, across all reallocations.", "quantifier": "every sequence of write operations, initial size and growth factor", "why_tests_cant": "depends on reallocation history", "anchors": ["src/libawkward/forth/ForthOutputBuffer.cpp:ForthOutputBuffer"]}
{"id": "C42", "title": "N-dimensional index arrays are flattened in row-major order", "statement": "Using an n-dimensional integer array as an index selects array[index[i,j,...]] at position [i,j,...] for any memory layout (strides) of the index array.", "quantifier": "every number of dimensions, shape and strides", "why_tests_cant": "wrong only from three dimensions on", "anchors": ["src/libawkward/Slice.cpp:SliceArrayOf::ravel", "src/cpu-kernels/awkward_slicearray_ravel.cpp"]}
{"id": "C43", "title": "Broadcasting repeats and aligns lists", "statement": "broadcast_arrays of a flat array against a list array repeats element i once for each element of list i; two list arrays broadcast only if all inner lengths agree, and then their elements stay in place.", "quantifier": "every pair of list layouts", "why_tests_cant": "alignment must be checked for every i", "anchors": ["src/libawkward/array/ListArray.cpp:broadcast_tooffsets64", "src/libawkward/array/RegularArray.cpp:broadcast_tooffsets64", "src/cpu-kernels/awkward_ListArray_broadcast_tooffsets.cpp", "src/cpu-kernels/awkward_RegularArray_broadcast_tooffsets.cpp", "src/cpu-kernels/awkward_RegularArray_broadcast_tooffsets_size1.cpp"]}
{"id": "C44", "title": "Type conversions of masks and truth values", "statement": "Converting numbers to booleans (values_astype, merging with booleans) makes exactly the zero values False.", "quantifier": "all numbers", "why_tests_cant": "negative numbers are rarely in tests", "anchors": ["src/cpu-kernels/awkward_NumpyArray_fill_tobool.cpp"]}
{"id": "C45", "title": "Row identities identify rows", "statement": "The identities assigned to nested contents map each inner element back to the (outer row, position) it belongs to, and every unreachable inner row gets -1.", "quantifier": "every list layout", "why_tests_cant": "index arithmetic over unbounded layouts", "anchors": ["src/libawkward/Identities.cpp", "src/cpu-kernels/awkward_Identities_from_ListOffsetArray.cpp", "src/cpu-kernels/awkward_Identities_from_RegularArray.cpp", "src/cpu-kernels/awkward_Identities_from_ListArray.cpp"]}
{"id": "C46", "title": "Strided arrays read as their elements", "statement": "A NumPy array with any strides (including slices with negative steps and transposes) has the same to_list before and after being made contiguous.", "quantifier": "every shape and strides", "why_tests_cant": "address arithmetic in any number of dimensions", "anchors": ["src/libawkward/array/NumpyArray.cpp:contiguous", "src/libawkward/array/NumpyArray.cpp:contiguous_next", "src/cpu-kernels/awkward_NumpyArray_contiguous_copy.cpp", "src/cpu-kernels/awkward_NumpyArray_contiguous_next.cpp", "src/cpu-kernels/awkward_NumpyArray_contiguous_init.cpp"]}
{"id": "C47", "title": "Slicing keeps an array valid", "statement": "A range slice array[a:b] or an integer-array slice of an array that is_valid accepts is again accepted by is_valid.", "quantifier": "every layout, every bounds and index array", "why_tests_cant": "all nestings of node classes, with masked and indexed nodes above records", "anchors": ["src/libawkward/array/ListOffsetArray.cpp:getitem_range_nowrap", "src/libawkward/array/RecordArray.cpp:carry", "src/libawkward/array/ByteMaskedArray.cpp:carry", "src/libawkward/array/ByteMaskedArray.cpp:validityerror"]}
{"id": "C48", "title": "num measures the lists at any depth", "statement": "num(array, axis) for any positive axis replaces every list at that depth by its length, leaving the nesting above it (lists, records, missing values) as it was, also for arrays that have been sliced.", "quantifier": "every layout, every axis", "why_tests_cant": "offsets of a slice that do not begin with zero, at every depth of nesting", "anchors": ["src/libawkward/array/ListOffsetArray.cpp:num", "src/libawkward/array/ListArray.cpp:num", "src/libawkward/array/RegularArray.cpp:num", "src/libawkward/array/IndexedArray.cpp:num", "src/libawkward/array/RecordArray.cpp:num", "src/awkward/operations/structure.py:num"]}
{"id": "C49", "title": "Forth: calling a word leaves a paused program where it was", "statement": "Calling a word of an AwkwardForth machine while its program is paused returns to the same instruction with the same loop counters, so that the program goes on as if the word had not been called (except for what the word did to the stack, variables and buffers).", "quantifier": "every program, every place to pause, every word", "why_tests_cant": "depends on which loops and calls are open when the program is paused", "anchors": ["src/libawkward/forth/ForthMachine.cpp:call", "src/libawkward/forth/ForthMachine.cpp:internal_run"]}
{"id": "C50", "title": "Forth: reading numbers to the stack gives the numbers in the input", "statement": "Reading one or several integers of a fixed-size format in either byte order pushes exactly these integers on the stack, in order, and moves the position behind them.", "quantifier": "every input, position, format, byte order, and count", "why_tests_cant": "all byte patterns of all formats", "anchors": ["src/libawkward/forth/ForthMachine.cpp:internal_run", "src/libawkward/forth/ForthInputBuffer.cpp:read"]}
{"id": "C51", "title": "Several index arrays are paired", "statement": "array[[i0, i1, ...], [j0, j1, ...]] with several integer arrays of the same length selects array[i0][j0], array[i1][j1], ... also when ranges come before or after them and when some of the lists are missing (a missing list gives a missing value); an index out of range raises.", "quantifier": "every nested list layout, any number of index arrays next to each other, any ranges around them", "why_tests_cant": "the index arrays travel through every level of nesting together with a running position that must stay aligned with the rows", "anchors": ["src/libawkward/array/RegularArray.cpp:getitem_next", "src/libawkward/array/ListArray.cpp:getitem_next", "src/libawkward/array/ListOffsetArray.cpp:getitem_next", "src/libawkward/array/IndexedArray.cpp:getitem_next", "src/cpu-kernels/awkward_RegularArray_getitem_next_array_advanced.cpp", "src/cpu-kernels/awkward_ListArray_getitem_next_array_advanced.cpp", "src/cpu-kernels/awkward_ListArray_getitem_next_range_spreadadvanced.cpp"]}
{"id": "C52", "title": "Unknown field names raise", "statement": "array[name] raises an error when some record that the name is looked up in has no field of that name; it never returns the values of another field.", "quantifier": "every layout and every name", "why_tests_cant": "names are unbounded strings; the fallback for tuples parses any string as a number", "anchors": ["src/libawkward/util.cpp:fieldindex", "src/libawkward/array/RecordArray.cpp:getitem_field"]}
{"id": "C53", "title": "values_astype converts every number and keeps the structure", "statement": "values_astype returns an array of the same structure, with the same missing values and strings, in which every number is the conversion of the number at the same place to the requested type (truncation towards zero for integers, reduction modulo two to the number of bits, real part of complex numbers).", "quantifier": "every layout, every numeric target type", "why_tests_cant": "layouts and numbers are unbounded", "anchors": ["src/libawkward/array/NumpyArray.cpp:numbers_to_type", "src/libawkward/array/NumpyArray.cpp:as_type", "src/libawkward/array/BitMaskedArray.cpp:numbers_to_type", "src/awkward/operations/structure.py:values_astype"]}
{"id": "C54", "title": "Arrays of numbers in several dimensions are lists of lists", "statement": "Turning a NumPy array of any shape and strides into nested lists of fixed size (as every operation on lists does first) shows the same nested lists, also when some of its dimensions are zero.", "quantifier": "every shape and strides", "why_tests_cant": "shapes are unbounded and the row-major order has to be right in every number of dimensions", "anchors": ["src/libawkward/array/NumpyArray.cpp:toRegularArray"]}
{"id": "C55", "title": "Slicing NumPy arrays selects from the nested lists", "statement": "Slicing a NumPy array of any shape and strides by integers, ranges, ellipsis, newaxis and index arrays gives exactly the items that the same slice selects from the nested lists the array shows; an index out of range or an item too many is refused with an error, and nothing outside of the buffer is read.", "quantifier": "every shape, strides and slice", "why_tests_cant": "shapes, strides and slices are unbounded; views of views multiply the cases", "anchors": ["src/libawkward/array/NumpyArray.cpp:getitem", "src/libawkward/array/NumpyArray.cpp:getitem_bystrides", "src/libawkward/array/NumpyArray.cpp:getitem_next", "src/cpu-kernels/awkward_NumpyArray_getitem_next_array.cpp", "src/cpu-kernels/awkward_NumpyArray_getitem_next_range.cpp", "src/cpu-kernels/awkward_NumpyArray_getitem_next_at.cpp", "src/cpu-kernels/awkward_NumpyArray_getitem_next_null.cpp"]}
{"id": "C56", "title": "Ragged masks filter per list", "statement": "array[mask] with a ragged array of booleans, nested like the array, keeps in every list exactly the items whose mask entry is true, in order; masks whose lists differ in number from the lists of the array, or that mark a position outside of a list, raise.", "quantifier": "every ragged array and every ragged boolean mask, at any depth", "why_tests_cant": "the true positions of the whole mask are found first and then cut into lists and renumbered by a single pass over both; any combination of empty lists and lists without a true value must keep the two passes aligned", "anchors": ["src/cpu-kernels/awkward_ListOffsetArray_getitem_adjust_offsets.cpp", "src/libawkward/array/ListOffsetArray.cpp:asslice", "src/libawkward/array/NumpyArray.cpp:asslice"]}
{"id": "C57", "title": "JSON text says what the array shows, and is read back as the same values", "statement": "to_json(array) writes, for an array built from any mixture of node types, the JSON text of exactly what to_list(array) shows (text and bytes as strings, tuples as objects with numbered keys, complex numbers as objects with the two given fields); from_json of the text of any JSON values gives an array that shows these values in order, or for a single value that value; so from_json(to_json(array)) shows the same as array whenever the elements are JSON values (integers may become reals, records may gain missing fields).", "quantifier": "every array of every mixture of node types whose values have a JSON counterpart, every sequence of JSON documents nested in any way", "why_tests_cant": "writing walks through every combination of node classes, with strings decided by the parameters of the content and everything else by the class; reading goes through a builder that changes its own type as values arrive, in any order of types", "anchors": ["src/libawkward/io/json.cpp", "src/libawkward/array/NumpyArray.cpp:tojson_part", "src/libawkward/array/RecordArray.cpp:tojson_part", "src/libawkward/Content.cpp:tojson", "src/awkward/operations/convert.py:to_json"]}
{"id": "C58", "title": "The type of an array describes its values, and selecting rows keeps it", "statement": "ak.type(array) describes what to_list(array) shows: as many items as the length says, lists of exactly the fixed size where the type has one, numbers that the primitive type can hold, None only where there is an option, records with the fields of the type, and one of the alternatives of a union. array[start:stop:step], array[positions] and array[mask] have the same type apart from the length, and the type of array[i] is the one that the type of the array gives for its items.", "quantifier": "every valid array of every mixture of node types, every range, array of positions, mask and index", "why_tests_cant": "types are computed from the layout without looking at the values, and slicing changes the layout (lazy records, masks turned into bytes or indexes, lists without offsets) in ways that depend on the positions; the two have to agree for every combination of nodes", "anchors": ["src/awkward/operations/describe.py:type", "src/libawkward/array/IndexedArray.cpp:IndexedForm::type", "src/libawkward/array/RecordArray.cpp:RecordForm::type", "src/libawkward/array/UnionArray.cpp:UnionForm::type", "src/libawkward/type/Type.cpp", "src/libawkward/util.cpp:gettypestr"]}
{"id": "C59", "title": "The text of a type can be read back", "statement": "ak.types.from_datashape(str(t), high_level) gives back the type t, for every type that str shows, whatever is nested in it; so two different types are never shown with the same text.", "quantifier": "every type of every depth, with any field names, record names and parameters, at the high and the low level", "why_tests_cant": "types nest without bound, and the printer and the grammar were written separately: brackets for parameters, the two forms of options and records, names and words of the language can meet in any combination", "anchors": ["src/awkward/_typeparser/parser.py:toast", "src/awkward/_typeparser/type-grammar.lark", "src/libawkward/type/RecordType.cpp:tostring_part", "src/libawkward/type/OptionType.cpp:tostring_part", "src/libawkward/type/Type.cpp:string_parameters", "src/libawkward/type/RegularType.cpp:tostring_part"]}
{"id": "C60", "title": "Packing keeps the array and drops what cannot be reached", "statement": "ak.packed(array) shows the same values and has the same type as array, for every valid array; the result has no data that cannot be reached from it: its lists follow each other from the first item of the content to the last, items are gathered through an index only to leave out missing ones, in order, and fields and masked contents are exactly as long as the array.", "quantifier": "every valid array of every mixture of node types, with any amount of unreachable data at any level", "why_tests_cant": "each of the node types is rebuilt in a different way and some are turned into others first; which ones meet depends on how the array was sliced and masked before", "anchors": ["src/awkward/operations/structure.py:_packed", "src/libawkward/array/ListArray.cpp:toListOffsetArray64", "src/libawkward/array/IndexedArray.cpp:project", "src/libawkward/array/ByteMaskedArray.cpp:simplify_optiontype", "src/libawkward/array/BitMaskedArray.cpp:toIndexedOptionArray64"]}
{"id": "C61", "title": "unflatten divides lists exactly as the counts say", "statement": "unflatten(array, counts, axis) has one more level than array: the items of every list at that depth, from the first list to the last, are divided into new lists whose lengths are the counts, and everything else stays as it is; a missing count makes a missing list. It raises if the counts do not add up to the lengths of the lists, if a list would have to be cut, or if a count is negative, and only then.", "quantifier": "every valid array of any depth with lists of any class, missing lists and unreachable data above the axis; every sequence of counts, with zeros and missing counts anywhere, or one integer; every axis", "why_tests_cant": "the counts are matched with the lists by binary search in running totals, which empty lists and zero counts make ambiguous; where they occur and how many follow each other is unbounded", "anchors": ["src/awkward/operations/structure.py:unflatten", "src/awkward/operations/structure.py:_packed", "src/awkward/_util.py:recursively_apply", "src/libawkward/Content.cpp:axis_wrap_if_negative"]}
{"id": "C62", "title": "is_none tells the missing elements at an axis", "statement": "is_none(array, axis) has a boolean in place of every element of array at depth axis, true exactly if this element is missing; lists, missing lists and records around these elements are kept. A negative axis counts from the innermost level, and an axis deeper than the array raises.", "quantifier": "every valid array of every mixture of node types and any depth, and every axis", "why_tests_cant": "missing data is stored by five node types that can be nested in lists, records, unions and indexes in any combination; what is tested at depth k depends on all nodes above", "anchors": ["src/awkward/operations/structure.py:is_none", "src/awkward/_util.py:recursively_apply", "src/libawkward/Content.cpp:axis_wrap_if_negative"]}
{"id": "C63", "title": "singletons turns missing elements into empty lists and others into lists of one", "statement": "singletons(array) has, in place of every element at the depth of the missing data, a list of this element, or an empty list if it is missing; everything else is kept.", "quantifier": "every valid array with missing data at any depth, stored by any of the node types", "why_tests_cant": "the lists are computed from masks with unreachable data behind the missing elements, for any length and placement of missing elements", "anchors": ["src/awkward/operations/structure.py:singletons", "src/awkward/_util.py:recursively_apply", "src/libawkward/array/IndexedArray.cpp:project"]}
{"id": "C64", "title": "from_regular and to_regular change the type at one axis only", "statement": "from_regular(array, axis) and to_regular(array, axis) show the same values as array; the type of the result is that of array except that the lists at depth axis have variable or fixed size. to_regular raises if two lists at that depth have different lengths, and only then; both raise if there are no lists at that depth.", "quantifier": "every valid array of every mixture of node types and any depth, and every axis", "why_tests_cant": "which node types lie above and below the axis is unbounded, and the lengths of all lists at the axis decide", "anchors": ["src/awkward/operations/structure.py:to_regular", "src/awkward/operations/structure.py:from_regular", "src/awkward/_util.py:recursively_apply", "src/libawkward/array/ListOffsetArray.cpp:toRegularArray", "src/libawkward/array/RegularArray.cpp:toListOffsetArray64"]}
{"id": "C65", "title": "run_lengths counts runs of equal neighbours in each innermost list", "statement": "run_lengths(array) has the structure of array, except that every innermost list is replaced by the lengths of its maximal runs of equal neighbours, in order; runs do not cross list boundaries, and empty lists stay empty. Strings are single values. unflatten(array, run_lengths(array)) divides a flat array into lists of equal elements.", "quantifier": "every valid array of numbers or strings with any number of levels of lists of any class, including empty lists anywhere", "why_tests_cant": "the lists are handled as one flat sequence whose boundaries are marked by positions computed from the offsets; empty lists at the ends and repeated boundaries shift these positions, for arbitrarily many lists", "anchors": ["src/awkward/operations/structure.py:run_lengths", "src/awkward/_util.py:recursively_apply", "src/awkward/behaviors/string.py:_string_notequal"]}
{"id": "C66", "title": "zip combines equally long arrays into records, and unzip takes them apart", "statement": "zip(arrays) returns an array with the length of all arrays, in which the values at depth depth_limit (or, without a limit, the values that are not lists; strings are not lists) are combined into records with the given names; above that depth lists must have equal lengths and are combined item by item, single values are combined with every item, and missing values make the result missing. Arrays of different lengths are refused. unzip of zip(arrays, depth_limit=1) returns the same arrays.", "quantifier": "every number of arrays of any structure and depth, with any names, and every depth limit", "why_tests_cant": "the arrays can mix node types (fixed-size and variable-length lists, options, indexes, records) in every combination at every depth, and the lists may have different internal offsets", "anchors": ["src/awkward/operations/structure.py:zip", "src/awkward/operations/structure.py:unzip", "src/awkward/_util.py:broadcast_and_apply", "src/awkward/behaviors/string.py:_string_broadcast"]}
{"id": "C67", "title": "mask keeps exactly the values whose boolean is valid_when", "statement": "mask(array, booleans, valid_when) has the values of array where the boolean is valid_when and missing values elsewhere. The booleans can be in lists, with the list lengths of the array; then the items of the lists are masked. A boolean for a whole list keeps or removes the list. A flat array of booleans masks arrays of any type with its length, and masks of other types are refused.", "quantifier": "all arrays and masks of any depth and mixture of node types, and both values of valid_when", "why_tests_cant": "array and mask are broadcast through any combination of lists, options and records before the mask applies, and the options are merged with those already in the array", "anchors": ["src/awkward/operations/structure.py:mask", "src/awkward/_util.py:broadcast_and_apply", "src/libawkward/array/ByteMaskedArray.cpp:simplify_optiontype"]}
{"id": "C68", "title": "element-wise functions apply to corresponding numbers of nested arrays", "statement": "A NumPy universal function of several arrays has, at each place, the value of the function for the numbers of the arrays at this place: lists must have equal lengths at each place, a number beside a list is used for every item of the list, the only element of an array of length 1 is used for every row, and where one of the values is missing the result is missing. Records are refused. The result depends only on the lists that the arrays show.", "quantifier": "every function, every number of arrays, of any depth and mixture of node types", "why_tests_cant": "numbers correspond to each other through different node types, offsets, indexes and missing values at each level of each array, without a bound on depth or length", "anchors": ["src/awkward/_connect/_numpy.py:array_ufunc", "src/awkward/_util.py:broadcast_and_apply"]}
{"id": "C69", "title": "where chooses between two arrays, row by row", "statement": "where(condition, x, y) with a flat condition returns an array of the same length whose row i is x[i] if the condition is true (or not zero) in row i, and y[i] otherwise, whatever the types of x and y are; it accepts all valid x and y of the length of the condition. A condition in lists chooses between the items of lists.", "quantifier": "all flat conditions of booleans or numbers and all arrays x and y of the same length, of the same or of different types", "why_tests_cant": "the two arrays are combined into a union whose alternatives may or may not be merged, depending on their types at every depth", "anchors": ["src/awkward/operations/structure.py:where", "src/awkward/_util.py:broadcast_and_apply", "src/libawkward/array/UnionArray.cpp:simplify_uniontype"]}
{"id": "C70", "title": "with_field replaces or adds one field and keeps everything else", "statement": "with_field(records, what, name) returns an array of the same structure as records, in which each record has the value of what as the field of this name and all other fields unchanged; without a name the new field of a tuple is its next item. Field names stay distinct.", "quantifier": "all arrays of records or tuples with any fields, all arrays what that fit, and all names", "why_tests_cant": "the records are reached through any combination of nodes, have any number of fields, and the new field may replace any of them", "anchors": ["src/awkward/operations/structure.py:with_field", "src/awkward/_util.py:broadcast_and_apply"]}
{"id": "C71", "title": "cartesian with axis 0 has all choices of one element of each array, in order", "statement": "cartesian(arrays, axis=0) has one record (or tuple) for each choice of one element of every array, in the order of nested loops over the arrays. With nested=True the records are in lists of lists: one outer element for each element of the first array, with one element for each element of the second, and so on; nested=[i] groups the records with the same elements of the arrays up to i. The result is a valid array.", "quantifier": "any number of arrays of any lengths and types, with or without names", "why_tests_cant": "the number of arrays and their lengths are unbounded, and the positions of the elements are computed by index arithmetic", "anchors": ["src/awkward/operations/structure.py:cartesian"]}
{"id": "C72", "title": "flatten with axis=None and `in` see exactly the numbers of the array", "statement": "flatten(array, axis=None) has every number of the array as often as it occurs in the array, and nothing else, from left to right if there are no records and unions; `x in array` is true if and only if some number of the array equals x. Both accept every valid array.", "quantifier": "all valid arrays of any nesting of lists, missing values, records and unions, and all numbers x", "why_tests_cant": "the array may have any depth and combination of nodes, and buffers may have numbers that are not in the array", "anchors": ["src/awkward/_util.py:completely_flatten", "src/awkward/operations/structure.py:flatten", "src/awkward/highlevel.py:__contains__"]}
{"id": "C73", "title": "reducers with axis=None reduce all numbers of the array", "statement": "With axis=None, count, count_nonzero, sum, prod, any and all give the reduction of all numbers of the array; min and max give the least and the greatest, or None if there are no numbers, and respect the argument initial; argmin and argmax give the first position of that number in the completely flattened array, or None. They accept every valid array, and partitions make no difference.", "quantifier": "all valid arrays of any nesting of lists, missing values, records and unions, all orders of the numbers", "why_tests_cant": "the array may have any depth and combination of nodes, and the reduction is split in parts that depend on them", "anchors": ["src/awkward/operations/reducers.py:count", "src/awkward/operations/reducers.py:sum", "src/awkward/operations/reducers.py:min", "src/awkward/operations/reducers.py:argmin", "src/awkward/_util.py:completely_flatten"]}
{"id": "C74", "title": "to_categorical keeps the values and stores each category once; from_categorical keeps the values", "statement": "to_categorical gives an array with the same values, labelled as categorical, whose categories are different from each other. from_categorical gives an array with the same values that is not labelled. to_categorical accepts every valid array; records and tuples are categories as a whole.", "quantifier": "all valid arrays of lists, missing values, numbers, strings, records and unions", "why_tests_cant": "the array may have any depth and representation of missing values, and any number of repeated values", "anchors": ["src/awkward/behaviors/categorical.py:to_categorical", "src/awkward/behaviors/categorical.py:from_categorical", "src/awkward/behaviors/categorical.py:categories", "src/awkward/behaviors/categorical.py:_hashable"]}
{"id": "C75", "title": "equality of categorical arrays is equality of their values", "statement": "one == two for categorical arrays is true in exactly the rows whose values are equal, whatever the order of the categories and the numbers that stand for them, and missing values are equal to missing values only.", "quantifier": "all categorical arrays of numbers and strings, with or without missing values", "why_tests_cant": "the categories of the two arrays may be any lists, in any order and with any overlap", "anchors": ["src/awkward/behaviors/categorical.py:_categorical_equal"]}
{"id": "C76", "title": "equality of arrays of strings is equality of the strings, character by character", "statement": "one == two for arrays of strings (or bytestrings) of the same length is an array of booleans that is true in exactly the rows whose strings are the same; a single string is compared with every string of an array.", "quantifier": "all arrays of strings of any lengths, including empty strings, in any order within their content", "why_tests_cant": "the strings may have any number and lengths, and lie anywhere in a shared buffer", "anchors": ["src/awkward/behaviors/string.py:_string_equal", "src/awkward/_connect/_numpy.py:array_ufunc", "src/awkward/_util.py:broadcast_and_apply"]}
{"id": "C77", "title": "firsts picks the first item of each list, or None, and inverts singletons", "statement": "firsts(array) has the first item of every nonempty list and None for every empty list; with axis=0 it is the first element of the array or None. firsts(singletons(array)) has the same values and missing values as array.", "quantifier": "all arrays of lists of any lengths and representations", "why_tests_cant": "there may be any number of lists, anywhere in the content, of which any number may be empty", "anchors": ["src/awkward/operations/structure.py:firsts", "src/awkward/operations/structure.py:singletons", "src/awkward/operations/structure.py:mask", "src/awkward/operations/structure.py:num"]}
{"id": "C78", "title": "concatenate at axis 1 appends the lists of each row", "statement": "concatenate(arrays, axis=1) of arrays of lists with the same length has, at position i, the items of element i of the first array followed by those of the second array and so on, whatever the types of the items; missing lists count as empty.", "quantifier": "all finite sequences of arrays of lists of any lengths and representations", "why_tests_cant": "the rows are assembled in a buffer from all arrays at once; there may be any number of arrays, rows and items", "anchors": ["src/awkward/operations/structure.py:concatenate", "src/libawkward/array/UnionArray.cpp:nested_tags_index", "src/cpu-kernels/awkward_UnionArray_nestedfill_tags_index.cpp:awkward_UnionArray_nestedfill_tags_index"]}
{"id": "C79", "title": "full_like, zeros_like and ones_like keep the structure and the types", "statement": "full_like(array, number) has the same lists, records, missing values and types as the array, every number replaced by the given number converted to the type that it had and every string by the text of the number; zeros_like fills 0 and the empty string and ones_like fills 1.", "quantifier": "all valid arrays of any structure and all numbers that the types in the array have", "why_tests_cant": "the array may be nested arbitrarily with different types at different places", "anchors": ["src/awkward/operations/structure.py:full_like", "src/awkward/operations/structure.py:zeros_like", "src/awkward/operations/structure.py:ones_like", "src/awkward/_util.py:recursively_apply"]}
{"id": "C80", "title": "without_parameters removes all parameters and nothing else", "statement": "without_parameters(array) has no parameters at any level and the same elements, except that strings are seen as lists of numbers; doing it twice is the same as doing it once.", "quantifier": "all valid arrays of any structure", "why_tests_cant": "the parameters may be at any node of an arbitrarily nested array", "anchors": ["src/awkward/operations/structure.py:without_parameters", "src/awkward/_util.py:recursively_apply"]}
{"id": "C81", "title": "to_numpy gives a NumPy array with the same elements, or raises", "statement": "If to_numpy(array) does not raise, then its tolist() is to_list(array), with missing numbers masked; with allow_missing=False it is an ordinary array and nothing is missing. It does not raise for rectangular arrays of numbers or strings.", "quantifier": "all valid arrays of numbers, strings, lists, missing numbers and records, of any nesting and length", "why_tests_cant": "the array may have any depth, any layout of its lists and missing values at any place", "anchors": ["src/awkward/operations/convert.py:to_numpy", "src/libawkward/array/ListOffsetArray.cpp:toRegularArray"]}
{"id": "C82", "title": "from_numpy shows the nested lists of the NumPy array", "statement": "from_numpy(array).tolist() == array.tolist() for arrays of numbers, strings and bytestrings of any number of dimensions, masked or not, with regulararray true or false; the array that is returned can be read everywhere, and the conversion does not raise.", "quantifier": "all NumPy arrays of numbers, strings and bytestrings, of any shape, items, item size and mask", "why_tests_cant": "shapes, masks and lengths of strings are unbounded, and lengths of 0 in some dimension are easily forgotten", "anchors": ["src/awkward/operations/convert.py:from_numpy"]}
{"id": "C83", "title": "strings_astype reads each string as a number", "statement": "strings_astype(array, dtype) replaces every string by the number that NumPy reads from it on its own, and keeps lists, records, missing values and numbers; a string that cannot be read makes it raise, and only strings that are in the array do.", "quantifier": "all valid arrays with strings at any depth, of any lengths, and every way to read a number from bytes", "why_tests_cant": "strings of all lengths are put into one buffer of equal items, so that the result for one string could depend on the others", "anchors": ["src/awkward/operations/structure.py:strings_astype"]}
{"id": "C84", "title": "size counts the items of a rectilinear array", "statement": "size(array) gives a number only if every item has the same dimensions, and then it is the length of the array times the product of these dimensions, which is the number of numbers in an array of lists and numbers; size(array, axis) gives the length of every list at that axis, and raises if they differ.", "quantifier": "all valid arrays, with lists of fixed and variable length, records, unions and missing values at any depth, and all axes that are not negative", "why_tests_cant": "the sizes are read from the nodes of the array without looking at the lists, whatever the nesting", "anchors": ["src/awkward/operations/structure.py:size"]}
{"id": "C85", "title": "argcombinations gives the positions of the combinations", "statement": "argcombinations(array, n, axis) replaces every list at the axis by the picks of n of its positions, each once and in lexicographic order, as tuples or records of integers; taking the items at these positions gives combinations(array, n, axis). Missing lists stay missing, and other values do not change.", "quantifier": "all valid arrays, n, axes that are not negative, with and without replacement and field names", "why_tests_cant": "the picks come from two kernels that count and fill buffers for lists of all lengths below any nesting", "anchors": ["src/awkward/operations/structure.py:argcombinations", "src/libawkward/array/EmptyArray.cpp:localindex"]}
{"id": "C86", "title": "with_name only changes the name of the outermost records", "statement": "with_name(array, name) gives the outermost records of the type that name, whatever lists, options and indexes surround them; records inside of records keep their names, the rest of the type and all values stay the same, and it does not raise.", "quantifier": "all valid arrays, names and tables of type names", "why_tests_cant": "the name is set by a recursion over the nodes, followed by another one that simplifies unions anywhere", "anchors": ["src/awkward/operations/structure.py:with_name"]}
{"id": "C87", "title": "fields lists the names that select fields", "statement": "fields(array) lists the names of the fields of the outermost records, in order ('0', '1', ... for tuples), whatever lists, missing values and unions surround them: every record has a field of each listed name, array[name] shows that field and does not raise, and raises for names that are not listed.", "quantifier": "all valid arrays and names", "why_tests_cant": "the names are found by a recursion over the nodes, another one than the selection by name, with an intersection at each union", "anchors": ["src/awkward/operations/describe.py:fields", "src/libawkward/util.cpp:keys", "src/libawkward/array/UnionArray.cpp:keys", "src/libawkward/array/RecordArray.cpp:keys"]}
{"id": "C88", "title": "argcartesian with axis 0 gives the positions of all choices", "statement": "argcartesian(arrays, axis=0) has one record of integers for each choice of one position in every array, in the order of nested loops; taking the elements at these positions gives cartesian(arrays, axis=0). The result is a valid array. nested=True groups the choices in lists, one for each position of the arrays before the last.", "quantifier": "any number of arrays, of any lengths and types, and all names and parameters", "why_tests_cant": "it composes local_index with cartesian, for any number of arrays of any lengths", "anchors": ["src/awkward/operations/structure.py:argcartesian", "src/awkward/operations/structure.py:cartesian"]}
{"id": "C89", "title": "mean and ptp with axis=None are those of all numbers of the array", "statement": "mean(array, axis=None) of integers is the sum of all numbers of the array divided by how many they are, as in numpy.mean, and ptp(array, axis=None) is the difference of the largest and the least, whatever lists, records, unions and missing values surround them; ptp without numbers is None, or 0 with mask_identity=False.", "quantifier": "all valid arrays of integers", "why_tests_cant": "sums and differences are computed part by part in 64 bits, for any nesting and any number of parts", "anchors": ["src/awkward/operations/reducers.py:mean", "src/awkward/operations/reducers.py:ptp", "src/awkward/_util.py:completely_flatten"]}
{"id": "C90", "title": "with_parameter sets one parameter of the outermost node and nothing else", "statement": "with_parameter(array, key, value) has that value among its parameters, no such key if the value is None, and otherwise the parameters, elements, validity and nested arrays of the array, unless the key is __array__, which says how the elements are shown; this holds for arrays and for single records.", "quantifier": "all arrays and records, all keys and values", "why_tests_cant": "any node class, any set of parameters and any history of setting and removing them", "anchors": ["src/awkward/operations/structure.py:with_parameter", "src/awkward/operations/describe.py:parameters", "src/python/content.cpp:withparameter", "src/libawkward/Content.cpp:setparameter"]}
{"id": "C91", "title": "the JSON of a form can be read back", "statement": "Form.fromjson(form.tojson(...)) is the form: the same classes, widths of indexes, names and order of fields, parameters, units and form keys at every depth, verbose or not; and JSON that does not say a form raises.", "quantifier": "all forms", "why_tests_cant": "any nesting of node classes with any names and parameters", "anchors": ["src/libawkward/Content.cpp:fromjson_part", "src/libawkward/Content.cpp:Form::tojson", "src/libawkward/Index.cpp:str2form", "src/libawkward/array/NumpyArray.cpp:NumpyForm::tojson_part", "src/libawkward/array/RecordArray.cpp:RecordForm::tojson_part"]}
{"id": "C92", "title": "a pickled array comes back with the same elements", "statement": "pickle.loads(pickle.dumps(array)) is an array with the same elements as the array, whatever part of its buffers the array uses; and a pickled record comes back with the same fields.", "quantifier": "all valid arrays", "why_tests_cant": "any nesting of node classes, with gaps, repetitions and unused elements at any depth", "anchors": ["src/awkward/highlevel.py:Array.__getstate__", "src/awkward/highlevel.py:Array.__setstate__", "src/awkward/highlevel.py:Record.__getstate__", "src/awkward/highlevel.py:Record.__setstate__", "src/awkward/operations/structure.py:packed", "src/awkward/operations/convert.py:to_buffers", "src/awkward/operations/convert.py:from_buffers"]}
{"id": "C93", "title": "moment, mean and var are those of statistics, and equal weights change nothing", "statement": "With axis=None, moment(x, n) is the mean of the n-th powers, moment(x, 1) is mean(x), moment(x, 0) is the sum of weights, mean with weights is the weighted mean, var(x, ddof) is the sum of the squared distances from the mean divided by the number of values less ddof; and weighting values equally is the same as no weights.", "quantifier": "all arrays of numbers, weights, powers and ddof", "why_tests_cant": "the numbers and the weights are arbitrary; tests compare a few arrays with NumPy, which has no moments", "anchors": ["src/awkward/operations/reducers.py:moment", "src/awkward/operations/reducers.py:mean", "src/awkward/operations/reducers.py:var"]}
{"id": "C94", "title": "linear_fit is the line of least squares, and covar is the covariance", "statement": "With axis=None, the intercept and the slope of linear_fit(x, y, weight) are those of the line with the least sum of weighted squared distances, and points on a line are fitted by that line; covar(x, y) is the weighted mean of the products of the distances from the means, and covar(x, x) is var(x).", "quantifier": "all arrays of numbers and positive weights", "why_tests_cant": "the numbers and the weights are arbitrary, and NumPy has no equivalent to compare with", "anchors": ["src/awkward/operations/reducers.py:linear_fit", "src/awkward/operations/reducers.py:covar"]}
{"id": "C95", "title": "nan_to_num changes numbers and nothing else", "statement": "nan_to_num(array) is an array with the same lists, records, strings and missing values as the given array, in which each number has its replacement; an array without NaN and infinities stays the same.", "quantifier": "all arrays, at any depth of nesting", "why_tests_cant": "the nesting is arbitrary, and tests look at numbers in flat arrays and lists", "anchors": ["src/awkward/operations/structure.py:nan_to_num", "src/awkward/_util.py:recursively_apply"]}
{"id": "C96", "title": "isclose compares the numbers that belong together", "statement": "isclose(a, b, rtol, atol) is an array of truth values with the structure of the broadcast arguments, in which two numbers x and y become whether |x - y| <= atol + rtol * |y|; missing values stay missing.", "quantifier": "all arrays that can be broadcast together, and all tolerances", "why_tests_cant": "the nesting, the missing values and the tolerances are arbitrary", "anchors": ["src/awkward/operations/structure.py:isclose", "src/awkward/_util.py:broadcast_and_apply"]}
