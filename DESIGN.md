# A Lean 4 model of awkward-1.0 (1.3.0)

Source: `/repo` (pinned), read as text only. Paths below are relative to `/repo`.
Properties: `properties.jsonl`. Claim status: `MANIFEST.json`. Mutation tests:
`seeded/LOG.jsonl`.

## 1. Trusted base

* Lean 4.33.0's kernel, and the axioms `propext`, `Classical.choice`, `Quot.sound`
  (each theorem uses at most these; `#print axioms` on a property theorem lists its own).
  No axioms of our own, no `sorry`, no `native_decide`, no `bv_decide`.
* The reading of the C++/Python source that the model's definitions encode. Each
  definition cites the file and lines it models and says where it simplifies.
* The small specifications in `Verif/Spec*.lean` and the statements in
  `Verif/Props*.lean`: these are what a reader has to check against the English.

## 2. Modelling conventions

* **Outcomes.** `R α` = `ok a | err e | ub`. `err` is a C++ exception / kernel error
  string; `ub` is undefined behaviour (out-of-bounds access, dereferencing null,
  an over-long loop that never ends). A theorem that says a result is `ok` therefore
  also says that no out-of-bounds access happened.
* **Memory.** A buffer is a `List`; `read`/`write` are bounds-checked and give `ub`
  outside. A kernel is the same loop as in the C++ (`forN n body`), with the same
  reads and writes in the same order.
* **Integers.** `int64_t` is modelled by unbounded `Int`: overflow of 64-bit sizes and
  offsets is *not* modelled. Narrow types whose wrap-around matters
  (`uint8_t` loop counters, `int8_t` union tags, Forth's 64-bit cells) are modelled
  as wrapping when the corresponding theorem is about them.
* **Floating point.** Not modelled bit by bit. Where a float may occur, it is either
  an abstract ordered type or a separate `Val` constructor.
* **Arrays.** `Content` is an inductive type with one constructor per C++ node class.
  `Content.at` mirrors `getitem_at_nowrap`, and `toList` mirrors iteration.
  Python-object boxing, dtypes' byte layout and `Identities` on nodes are left out
  (identities have their own module).
* **Property theorems** are in `Verif/Props/*.lean`, separate from helper lemmas.
  Next to each is an `example` showing that a concrete non-trivial case meets its
  hypotheses.
* **Disagreements.** When the code violates a property, the negation is proved with a
  concrete witness (`*_violated`), a guarded version is proved (`*_partial`), and the
  disagreement is listed in section 4.

## 3. Plan per property

| id | modelled | how |
|----|----------|-----|
| C01 | all `Builder` node classes as an inductive type, one `step` function per command | refinement: abstract value = list of completed values + open frames; simulation invariant preserved by each command, induction on the value |
| C02 | heap of blocks, `GrowableBuffer` as (block, length, reserved) | invariant over operations: appends only write at positions ≥ snapshot length or to a fresh block |
| C03 | as C02 | invariant `length ≤ reserved = block size`; growth strictly increases for resize > 1 |
| C04 | `clear` of every node class | negation witnesses for records/tuples; partial theorem for the other classes |
| C05 | as C01 with arbitrary commands | decision logic per command; negation witness for negative tuple index |
| C06 | `StringBuilder` in C01's model | negation witness + partial |
| C07 | `validityerror` of every node class, `Content.at` | structural induction on the layout |
| C08 | `getitem_at` | from C07 and `at` |
| C09 | `getitem_range_nowrap` of every node class | structural induction |
| C10 | `awkward_regularize_rangeslice`, range kernels | arithmetic against Python's documented slice rules |
| C11 | `carry` of every node class, `regularize_arrayslice` | structural induction + loop invariants; negation witness for `awkward_Index_carry`'s bound |
| C12 | `numtrue`/`nonzero` kernels, then carry | cursor-loop lemma |
| C13 | `getitem_next` for at/range over list nodes | induction on slice items |
| C14, C56 | `asslice` and `getitem_next_jagged` of every node class but unions (`Model/Jagged.lean`), with the jagged and mask kernels | loop invariants for each kernel; induction over the slice (outer) and over the array nodes (inner); the offsets of the slice tie the positions to the lists (`Cuts`, `SliceAt`) |
| C15 | mask conversion kernels | bit arithmetic, loop lemma |
| C16 | `simplify_optiontype` | index-map composition |
| C17 | `simplify_uniontype` | loop invariants |
| C18 | `mergemany`/`merge_as_union` | loop invariants, induction |
| C19, C20, C21, C22, C23 | list/option kernels and their callers | loop invariants |
| C24 | combinations kernels and `combinations` of every class (non-negative axis) | invariant of the recursive kernel: the buffers hold the columns of the picks written so far; binomial count; induction on the layout |
| C25, C26, C27 | reducer kernels and `reduce_next` of every list, option and index class (records, unions and `keepdims` left out) | scatter-loop invariant for the kernels; induction on the layout for the dimensions outside the axis; order of the merged items for the dimensions inside |
| C28 | `sort` and `argsort` of every class but UnionArray (`Model/Sort.lean`), `std::stable_sort` as insertion sort, `std::sort` as a parameter, the hand-written quick sort step by step | loop invariant over the beg/end stacks, at most 48 levels because the smaller part goes on top; one lemma for each kernel; induction on the layout for the dimensions outside the axis |
| C29 | the string branch of `sort` and `argsort` with `awkward_ListOffsetArray_argsort_strings` (`Model/Sort.lean`) | the comparison is a strict weak order; loop invariant of the kernel; induction on the layout |
| C30 | `is_unique` of all classes with its kernels (`Model/Unique.lean`) | invariants of the loops over sorted items, in which equal items are neighbours; negation witnesses |
| C42 | the named kernels | positive part + negation witnesses |
| C45 | `setidentities` of every class and its kernels (`Model/Identities.lean`), `identity_at`, `getitem_carry_64` | one lemma for each kernel about the rows of the table (`Laid`); structural induction; a relation `Reach` between items as specification, shown to agree with the listed values |
| C44, C53 | `numbers_to_type` of every class, `as_type`, the fill kernels | structural induction; the conversion of one item against an arithmetic specification |
| C31, C52 | `getitem_field`, `getitem_fields` of every class, `fieldindex`, `Record::getitem_field` | structural induction; the projected array shows the image of every element |
| C32, C33, C34 | C++ partition classes | arithmetic of the carried offset, list lemmas |
| C35 | `VirtualArray`, `ArrayGenerator`, `SliceGenerator` and the caches, with the forms that lazy slices promise (`Model/Virtual.lean`); evictions and inferred forms are arbitrary | invariant of the caches over any history (they hold what generators give); a relation between a lazy array and the array it stands for, kept by each operation; forms follow ranges, selections and projections |
| C36 | `to_buffers` (`fill`) and `from_buffers` (`_form_to_layout`) of `operations/convert.py`, with the bytes of every buffer, names, partitions and `Form::equal` (`Model/Buffers.lean`); floating point bytes are a parameter | invariant of the walk over numbered nodes (which buffers were written, what reading them gives); induction on the depth; bytes of integers by arithmetic; equal forms read alike |
| C37–C41 | Forth VM: bytecode interpreter with its instruction stacks, input and output buffers | step function; induction on schedule/fuel; invariant |
| C49, C50 | as C37 | from the invariant of C38; loop lemma over the items |
| C43 | `broadcast_arrays`: `broadcast_pack`, `apply` and `broadcast_unpack` of `_util.py` (fixed-size lists in the model, strings and unions left out), the broadcast kernels | an inductive specification of broadcasting one row of values; induction on the depth of the recursion, one lemma for each step of `apply`; acceptance for flat arrays and lists of numbers |
| C47 | `range`, `carry`, `validityerror` | structural induction; negation witness |
| C48 | `num` of every node class | induction on nodes |
| C51 | as C13, with the `advanced` argument | invariant that ties `advanced` to the rows (`AdvOk`) |
| C46, C54, C55 | NumPy arrays with a byte buffer, shape, strides and offset (`Model/Strided.lean`): `contiguous`, `toRegularArray`, `getitem_bystrides` and `getitem_next` with their kernels; slices without missing, jagged or field items | induction on dimensions; slicing by strides shifts every row by the same distance, so one lemma for the first dimension carries over to all rows; slicing by copies keeps the rows named by `carry` |
| C57 | `tojson_part` of every class, `Handler` and `do_parse` (`Model/Json.lean`); JSON as tokens: one call of a method of RapidJSON's writer or handler | induction on the depth of the array for writing; JSON values give the commands of the same Python objects, so C01 applies to reading |
| C58 | `Form::type` of every class, `setparameters` and `gettypestr` (`Model/Types.lean`) | `Describes` says what a type stands for; induction on the array for values, and for the type of cut and gathered arrays |
| C59 | `tostring_part` of the types and `from_datashape` on tokens (`Model/TypeText.lean`) | `Readable` says which types the language has; induction on it: the text of a type followed by anything that does not begin with a bracket is read as the type |
| C60 | `ak.packed` (`Model/Packed.lean`), one function with fuel over `project`, `toListOffsetArray64`, `simplify` and ranges | strong induction on the fuel, which the rank of the array bounds; `Packed` and `Packable` (`Spec/Packed.lean`) say what is reached and which arrays are handled; ranges and gathering keep `Packable` |
| C61 | `ak.unflatten` with `axis_wrap_if_negative` and `searchsorted` of NumPy (`Model/Unflatten.lean`); packing down to a given axis (`Model/Packed.lean`) | `Spec/Unflatten.lean` says what the division is (`Splits`, `Regroups`); binary search finds the last running total that is not larger; induction over the packed array, with the division of the items put back into lists (`nest`) and between missing values (`weave`); also C19's round trip |
| C62 | `ak.is_none` on top of `recursively_apply` (`Model/Apply.lean`) | `Spec/Apply.lean` applies a function to the elements at a depth (`Val.mapDepth`); one theorem about `recursively_apply` with any function that is right where it stops (`apply_maps`), used for C62-C64 |
| C63 | `ak.singletons` (`Model/Apply.lean`) | `apply_maps` again; the offsets count the elements that are not missing before each position |
| C64 | `ak.from_regular`, `ak.to_regular` with an axis (`Model/Apply.lean`), on top of the conversions of C20 | `apply_maps` with the identity, and a second theorem about types (`level_types`); `Spec/Regular.lean` says that two types are the same but for the lists at one depth (`SameBut`) |
| C65 | `ak.run_lengths` (`Model/RunLengths.lean`) on top of `recursively_apply` (C62); NumPy assignment and `searchsorted` as in C61 | the flat sequence with a mark at each beginning of a run is the concatenation of the marks of the lists, by induction on the lists (`setMarks_eq`); `searchsorted` finds the number of runs before an offset (`searchLeft_marks`); `Spec/RunLengths.lean` says what runs are (`IsRuns`), and they are unique (`C65_runs`) |
| C66 | `broadcast_and_apply` with the caller's function (`Model/BcastWith.lean`, extending C43 by fixed-size lists turned into lists, string broadcasting, depth and record rules), `ak.zip`, `ak.unzip` | soundness by induction on the fuel for every caller whose function meets `GetOk` (`bcastWith_sound`), with `Spec/BcastWith.lean` (`Spec.Applies`) as the specification; acceptance for depth limit 1 by computing the single broadcasting step (`zipArrays_one`) |
| C67 | `ak.mask` as a caller of the same function | `maskGet` meets `GetOk`; flat masks by computing the step (`mask_flat`) |
| C68 | `array_ufunc` with an arbitrary function of numbers, including the NumPy broadcasting of multidimensional arrays that it hands to NumPy (`deregulate`, `bcastShape`, `ndApply`) | `ufuncGet` meets `GetOk` for arrays without fixed-size lists; arrays that are all flat are handed to NumPy at once and are computed directly (`ndApply_row`) |
| C69 | `ak.where` as a caller of `broadcast_and_apply`, with `simplifyUnion` of C17 (`Model/With.lean`) | operations that stop at the outermost level on arrays of equal length are computed once and for all (`bcastAndApply_flat`); then C17 gives the rows |
| C70 | `ak.with_field` with one name or none | `bcastAndApply_flat`, and the fields of a record by their names (`withField_row`) |
| C71 | `ak.cartesian` with axis 0 (`meshIndexes`, `nestAll`) | element `k` of the product has the digits of `k` in mixed radix, and so have the index columns, by induction on the list of arrays (`mesh_get`, `product_get`); `nested=True` by induction from the last array to the first (`nestAll_all`) |
| C72 | `completely_flatten`, `ak.flatten` with `axis=None`, `Array.__contains__` (`Model/Complete.lean`) | each step through an option, index or list keeps the numbers (`Step`); records and unions permute them (`flatMap_swap`, `perm_boxes`); induction on the rank (`allParts_ok`) |
| C73 | the reducers of reducers.py with `axis=None`, `argmin` also for partitions | folding the parts and then their results is folding everything (`reduceParts_fold`); minima by `npMin_spec`, `reduceMin_spec`, `npArgmin_spec` |
| C74 | `to_categorical`, `from_categorical`, `categories`, `_hashable` (`Model/Categorical.lean`) | the loop over the values numbers the categories (`categorize_spec`); slicing with `is_first` by C12; each kind of node at depth 1 (`catted_stop`), induction on the array (`categorical_ok`) |
| C75 | `_categorical_equal` on the indexes and lists of categories | the dictionary gives the only equal category (`lookup_last`) |
| C76 | `_string_equal` and how `array_ufunc` finds it (`Model/StringEqual.lean`) | `num` by the theorem on reducers (C25), `one[possible]` by the theorem on masks (C12), the comparison of the characters by the theorem on element-wise functions (C68) and its acceptance of lists of equal lengths (`elementwise_lists`), `all` by C25 again; the outer broadcasting is computed (`equalArrays_ok`) |
| C77 | `firsts` (`Model/Firsts.lean`) | `num` by C19, `> 0` by the theorem on flat arrays (C68), `mask` by that on flat masks (C67), `[:, 0]` by C13: the masked array meets its hypotheses because only nonempty lists are left; C63 for the inverse |
| C78 | `concatenate` with axis ≥ 1, `nested_tags_index` (`Model/ConcatLists.lean`) | the kernel fills, in every row, the next free places (induction on the arrays and rows); `simplify` by C18; the outermost level of `broadcast_and_apply` |
| C79 | `full_like`, `zeros_like`, `ones_like` (`Model/Like.lean`) | `recursively_apply` maps the elements if it maps those of the nodes at which it stops (as for C62); types by induction on the array |
| C80 | `without_parameters` (`Model/Like.lean`) | induction on the array |
| C81 | `to_numpy` (`Model/ToNumpy.lean`), with NumPy arrays as a shape, items that may be uninitialised and a mask | induction on the nesting: the array made from the contents is reshaped, or its rows are put at the positions that are not missing |
| C82 | `from_numpy` (`Model/FromNumpy.lean`): the flat array of items, the fixed-size lists around it and the mask | induction on the dimensions, with the rows of `Model/ToNumpy.lean` |
| C83 | `strings_astype` (`Model/StringsAstype.lean`): `without_parameters`, `rpad_and_clip`, `to_numpy` and the view as bytestrings, composed from the models of C80, C22 and C81 | the theorems about these three give the bytes of every string, filled up with zeros; `apply_maps` for the nodes around the strings |
| C84 | `size` (`Model/Size.lean`): the recursion that collects the sizes, the comparison for records and unions, the product and the last size | induction over the nodes: the sizes that are collected are dimensions of every value |
| C85 | `argcombinations` (`Model/ArgCombinations.lean`): `localindex` and `combinations` of C21 and C24 | the theorems about both; induction over the nodes shows that `localindex` gives lists that `combinations` accepts |
| C86 | `with_name` (`Model/WithName.lean`): both passes of `recursively_apply`, with `simplify_uniontype` of C17 | `apply_maps` for the values, induction over the nodes for the type |
| C87 | `fields` (`Model/Fields.lean`): `keys` of every node class, with the intersection of unions | induction over the nodes, then C31 and C52 for the selection |
| C88 | `argcartesian` with axis 0 (`Model/ArgCartesian.lean`): `localindex` of C21, then `cartesian` of C71 | C71 for the arrays of positions, and products commute with maps |
| C89 | `mean` and `ptp` with `axis=None` (`Model/Mean.lean`): the reducers of C73 in 64-bit arithmetic | C73, and 64-bit sums agree with sums that fit |
| C90 | `with_parameter`, `parameters` (`Model/WithParameter.lean`): `setparameter` of the copied node | case analysis on the key and the node class |
| C91 | `Form::tojson`, `Form::fromjson` (`Model/FormJson.lean`), between JSON values; uninitialised flags are undefined behaviour | mutual induction over the form; members are found before the common last ones |
| C92 | `__getstate__`, `__setstate__` of arrays and records (`Model/Pickle.lean`), with `packed`, `to_buffers` and `from_buffers` of C60 and C36 | a packed array is one that can be restored, by induction; then the invariants of C60 and C36 |
| C93 | `ak.moment`, `ak.mean`, `ak.var` with weights and `axis=None` (`Model/Moment.lean`), through the element-wise functions of C68 and the reducers of C73; exact rational arithmetic | the element-wise functions of flat arrays, and of the numbers in lists, are maps; then algebra of sums; the mean of nested arrays from C73 |
| C94 | `ak.linear_fit`, `ak.covar` with `axis=None` (`Model/LinearFit.lean`), as for C93 | the normal equations hold; the difference of two errors is a sum of squares |
| C95 | `ak.nan_to_num` (`Model/NanToNum.lean`) through `recursively_apply` of `Model/Apply.lean`; the replacement of one number is a parameter | the general lemma about `recursively_apply`, by induction on the array |
| C96 | `ak.isclose` (`Model/IsClose.lean`) through `broadcast_and_apply` of `Model/BcastWith.lean`; exact rational arithmetic | the general lemma about `broadcast_and_apply`, as for C67 |

## 4. Disagreements between code and properties

Each entry names the theorem that proves the negation.

* **C16, `simplify()` on three nodes in a row** (`C16_triple_nesting_violated`).
  `IndexedArray::simplify_optiontype` (IndexedArray.cpp:655-948) composes with its content
  once, so a nesting of three option-type or indexed nodes comes back as two, which
  `validityerror` rejects. Values are preserved at every depth
  (`C16_simplify_preserves_values`), and two levels are flattened
  (`C16_simplify_flat_partial`).
* **C34, repartition with a trailing empty partition** (`C34_trailing_empty_partition_violated`).
  `IrregularlyPartitionedArray::repartition` reads `partitions_[numpartitions]`.
* **C20, `to_regular` of empty lists beyond the content** (`C20_to_regular_violated`).
  `ListOffsetArray::toRegularArray` cuts the content at the first and last offset before it looks
  at the lengths; a valid array of empty lists may have offsets beyond its content.
* **C22, `pad_none`** (`C22_pad_record_violated`, `C22_pad_unmasked_violated`,
  `C22_pad_empty_violated`). `RecordArray::rpad` drops the length, so a record array that is
  shorter than its fields gains rows; `UnmaskedArray::rpad_and_clip` at axis 0 does not clip;
  `awkward_ListArray_min_range` reads element 0 of an empty buffer.
* **C48, `num` at axis 2 of a slice** (`C48_num_sliced_violated`). `ListOffsetArray::num` compacts
  the offsets but not the content: `[[[4, 5, 6]]]`, sliced out of a longer array, has `num` 2.
* **C17/C18, merging and concatenating** (`C18_mixed_violated`, `C18_untrimmed_violated`,
  `C18_no_fields_violated`, `C18_neighbours_violated`, `C18_record_to_tuple_violated`,
  `C18_complex_violated`).
  `IndexedArray::mergemany` lets the last array decide whether the result may have missing values;
  `RecordArray::mergemany` takes the fields of the first array without cutting them to its length
  and gives records without fields the length -1; `ak.concatenate` only compares neighbours, and an
  array of unknown type is mergeable with everything; `NumpyArray::mergemany` counts floating point
  numbers for complex items and items for others, and copies only half of the others. Not in the model: `IndexedArray::reverse_merge`
  lacks an `else` and raises for 32-bit indexes; datetimes of different units are merged without
  conversion.
* **C23, `fill_none`** (`C23_nested_violated`). `IndexedArray::fillna` does not look inside of its
  content, so missing values below an option-type node stay.
* **C35, lazy arrays** (`C35_length_violated`, `C35_bitmask_violated`, `C35_union_violated`,
  `C35_names_violated`). `generate_and_check` accepts an array that is longer than promised, and then
  `array[-1:]` depends on whether the array is in the cache; the promised form of a range or of a
  field keeps a `BitMaskedForm` inside of a record, but slicing gives a `ByteMaskedArray`, so the lazy
  slice raises; `UnionForm::getitem_field` raises although the array has the field; a record form
  with two fields of one name is not equal to itself. Not in the model: a cache (a weak reference)
  that was garbage-collected makes `array()` raise; arrays with lazy parts.
* **C36, buffers** (`C36_field_order_violated`, `C36_offsets_violated`, `C36_mask_violated`,
  `C36_bitmask_violated`, `C36_duplicate_violated`). `RecordForm.contents` is a `std::map`, so the
  fields of a record come back in the order of their names, and of two fields with one name only
  one comes back; `_form_to_layout` asks a content for as many items as the last offset says, even
  if all lists are empty and the offset is beyond the content; it asks the content of a
  `ByteMaskedArray` only for the items that are used, but reads all of its mask; `fill` slices the
  fields of a record, which turns a `BitMaskedArray` into a `ByteMaskedArray` (another form).
  Not in the model: `from_buffers` of a `NumpyArray` with an inner shape of 0 divides by zero.
* **C45, row identities** (`C45_regular_violated`, `C45_masked_violated`, `C45_offsets_violated`,
  `C45_record_violated`, `C45_getitem_at_violated`, `C45_deep_copy_violated`).
  `awkward_Identities_from_RegularArray` begins to fill the remainder one list too late;
  `awkward_Identities_extend` is given numbers of rows where it expects numbers of values, so the
  identities of masked items in lists are uninitialised; `awkward_Identities_from_ListOffsetArray`
  writes up to the first offset and from the last one, which may lie outside of the content when the
  lists are empty; `RecordArray::setidentities` raises for fields that are longer than the record
  array; `IdentitiesOf::getitem_at_nowrap` does not multiply the row by the width, and
  `IdentitiesOf::deep_copy` copies as many values as there are rows.
* **C01/C05/C06, `ArrayBuilder`** (`C01_nested_tuple_violated`, `C01_alternatives_violated`,
  `C05_index_violated`, `C05_complex_violated`, `C05_from_int_violated`, `C06_violated`).
  `TupleBuilder::index` compares the field number with the length of the outermost open tuple, and
  does not reject negative numbers; a union of 129 alternatives has the tag -128;
  `StringBuilder::string` ignores the encoding; `Complex128Builder::endrecord` returns silently, and
  `fromint64` reads twice as many integers as there are.
* **C04, `ArrayBuilder.clear`** (`C04_tuple_violated`, `C04_record_violated`, `C04_open_violated`).
  `TupleBuilder::clear` and `RecordBuilder::clear` keep the contents but forget their number or names
  and set the length to -1; `ListBuilder::clear` does not close the list.
* **C37, Forth schedules** (`C37_violated_do`, `C37_violated_exit`). A single step that reaches the end
  of the body of a `do` loop leaves it without advancing the counter; a single step over `exit` goes on
  behind the call only if the segment is at its end.
* **C38, Forth bounds** (`C38_violated_exit`, `C38_violated_read`, `C38_violated_call`). `exit` in a
  called word removes the `do` loops of its caller; a negative repeat count moves the position of an
  input before its beginning; `call` does not check the maximum depth.
* **C40, Forth division** (`C40_violated_mod`, `C40_violated_min`). `(b + a % b) % b` overflows.
* **C41, Forth outputs** (`C41_violated`, `C41_violated_block`). Rewinding by a negative number is not
  rejected.
* **C49, calling a word while paused** (`C49_violated`). The end of the word advances the `do` loop of
  the paused program.
* **C50, reading to the stack** (`C50_violated_int64`, `C50_violated_uint32`). Numbers are converted to
  32 bits before they are pushed, also on a machine with 64 bits. Not in the model as a property: a
  comment that contains `else`, `then`, `loop` or `;` changes how the program is compiled, because
  the compiler looks for these words before it removes comments.
* **C12, strided masks** (`C12_strided_violated`). `NumpyArray::asslice` passes the stride in bytes to
  kernels that step through the mask but store and bound positions in bytes.
* **C13, slicing records** (`C13_record_violated`, `C13_no_fields_violated`, `C13_step_violated`).
  `RecordArray::getitem_next` applies only the first item to its fields and the rest to the new record
  array, one level too high; it loses the length of records without fields. The step `2**63 - 1` means
  "no step".
* **C42, index arrays of three or more dimensions** (`C42_three_dimensions_violated`).
  `awkward_slicearray_ravel` advances by `shape[1]`.
* **C51, several index arrays** (`C51_three_arrays_violated`, `C51_missing_violated`,
  `C51_empty_violated`). The kernels for a second array write `toadvanced[i] = i`, which is only right
  at the outermost level; option nodes drop missing rows but not the entries of `advanced`;
  `getitem_next_array_wrap` gives length zero to an empty index array.
* **C25, reducers at the innermost axis** (`C25_sliced_option_violated`, `C25_indexed_record_violated`).
  `IndexedArray::reduce_next` checks that the starts begin at zero, which is not so in a slice, and
  rejects records.
* **C26, reducers at an outer axis** (`C26_leading_empty_violated`, `C26_regular_violated`,
  `C26_four_dimensions_violated`). The lists of the result are assigned to groups by counting the
  groups that have items, in the order in which they are met; the result of a RegularArray is
  converted back to a RegularArray. In four dimensions the groups are not met in order, and the
  sum of a single item at axis 0 is not that item.
* **C27, argmin and argmax** (`C27_sliced_violated`, `C27_complex_violated`,
  `C27_missing_list_violated`). Positions are counted from the starts before slicing; the kernels
  for complex numbers compare the wrong items and read out of bounds; missing lists are not counted
  at an outer axis.
* **C24, combinations of regular lists** (`C24_regular_violated`, `C24_regular_always_violated`).
  `RegularArray::combinations` allocates `toindex` and `fromindex` with one entry for every item of a
  list instead of one for every slot of a combination.
* **C47, masked records** (`C47_masked_records_violated`). `ByteMaskedArray::carry` carries its content
  lazily, so records under a mask become an IndexedArray under a mask, which `is_valid` rejects.
* **C44, truth values** (`C44_negative_violated`, `C44_imaginary_violated`). The kernels that convert to
  booleans compare integers and reals with `> 0`, and look only at the real part of complex numbers.
* **C52, names that begin with a number** (`C52_violated`). `util::fieldindex` passes any name that it
  does not find to `std::stoi`, which ignores what follows the digits, also for records with names:
  `array["1st"]` is the second field.
* **C43, broadcasting** (`C43_hidden_violated`, `C43_empty_violated`, `C43_size0_violated`,
  `C43_nofields_violated`, `C43_inputs_violated`). With equal offsets, `apply` descends into
  `content[:offsets[-1]]`, which contains lists before the first offset that are not part of the
  array; arrays without lists are compared by their offsets; lists of size 0 lose their number;
  records without fields raise `TypeError`; `bitwise_or(..., out=mask)` writes into the buffer that
  `bytemask()` returned, which for a ByteMaskedArray with `valid_when=False` is the mask of the input.
* **C54, dimensions of size zero** (`C54_toRegular_violated`). `NumpyArray::toRegularArray` passes
  `shape_[i - 1]` as the number of lists of size zero, where the product of all dimensions before is
  meant: an array of shape `(2, 3, 0)` becomes one list of three empty lists.
* **C53, two dimensions** (`C53_matrix_violated`). `NumpyArray::numbers_to_type` converts
  `length()` items, which is the first dimension only, and keeps the shape: the rest of the items
  are read from outside of the new buffer.

* **C29, sorting strings** (`C29_descending_violated`, `C29_zero_bytes_violated`). In descending order
  the comparison is the negation of the ascending one, so two equal strings are each before the other:
  not a strict weak order, and `std::stable_sort` has undefined behaviour. `strncmp` stops at a zero
  byte, so strings that differ only after one are not ordered.
* **C30, is_unique** (`C30_lists_violated`, `C30_no_lists_violated`, `C30_nested_lists_violated`,
  `C30_record_violated`, `C30_strings_violated`, `C30_sliced_index_violated`, `C30_partitions_violated`).
  For lists, the kernel `awkward_NumpyArray_subrange_equal` compares only some of the pairs, after
  sorting each list, and keeps only the answer for the last pair; the ranges of the outer lists are
  passed unchanged through inner lists. A record array with one field is always unique. Empty strings
  are not counted when the array begins with them, and without any bytes all strings are counted; the
  position in the buffer is an 8-bit number while sorting. A sliced index is read from a wrong place. Partitions are
  tested one by one. For missing values the property is read as: Nones may be repeated.
* **C28, sort and argsort** (`C28_sliced_violated`, `C28_missing_numbers_violated`,
  `C28_missing_lists_violated`, `C28_records_violated`, `C28_argsort_missing_violated`). A sliced
  ListOffsetArray keeps its offsets over a trimmed content; missing numbers at the top level are
  dropped; missing lists inside of lists add a dimension; records inside of lists get the number of
  lists as their length; `argsort` counts positions among the values that are not missing (the tests
  of the project expect this), so `array[argsort(array)]` is not `sort(array)` for lists with Nones.

* **C14, ragged indexes** (`C14_missing_both_violated`, `C14_nested_missing_violated`,
  `C14_missing_lists_violated`, `C14_unknown_violated`, `C14_strided_violated`). An option-type array
  drops the starts and stops of its missing lists but keeps the content of the slice, so a slice with
  missing positions gives an unreadable array and a nested slice raises. Missing lists in the index
  make the code look up lists in the content of the array without its offsets: other lists are
  returned silently. Nested slices of lists of unknown type raise. 64-bit integers in a strided view
  are read one after the other.
* C57 `to_json` casts every integer to `int64_t` before writing, and `from_json` casts every integer that
  it reads: 2^63 becomes -2^63, both ways, without an error (`C57_uint64_violated`).
* C57 Keys go through `const char*` in both directions: a key is cut before its first NUL, so that two
  different keys of a record can be written as the same key (`C57_nul_violated`).
* C58 The parameters of an IndexedArray are put on the type of its content, but `array[i]` returns the
  record of the content without them: `ak.type(array)` shows `point[...]` and `ak.type(array[0])` does not
  (`C58_name_violated`).
* C59 `from_datashape` does not read everything that `str(type)` shows: there are no words for
  `float16`, `complex64`, `datetime64` and others (`C59_numbers_violated`); record names that have a digit or
  an underscore or begin like a word of the language (`charge`) are refused (`C59_names_violated`), as are
  named tuples and records without fields (`C59_named_tuple_violated`, `C59_empty_violated`).
* C59 At the high level `2 * int64` is always the type of an array, also inside of other types, so
  `ak.type` of an array with fixed-size lists is read as another type (`C59_fixed_violated`), and
  `option[2 * int64]` at neither level (`C59_optional_violated`). Fixed-size strings are shown as `string`
  (`C59_strings_violated`). Field names are written with escapes and read without undoing them
  (`C59_keys_violated`).
* C60 `ak.packed` divides by the size of a RegularArray, so `n` lists of fixed size zero raise
  (`C60_empty_lists_violated`). Masked contents are simplified first and then asked for
  `toIndexedOptionArray64`, which an IndexedOptionArray does not have: lists of masked records whose first
  list was sliced off raise AttributeError (`C60_masked_records_violated`). RegularArray, IndexedArray and
  IndexedOptionArray are rebuilt without their parameters, so fixed-size strings and categories change their
  type (`C60_strings_violated`, `C60_categories_violated`).
* C19, C61 `ak.unflatten` packs its argument with `axis - 1`, also for `axis = 0`, where `-1` is a negative
  axis: records with a field without lists and a field with lists raise "axis exceeds the min depth"
  (`C61_records_violated`, `C19_unflatten_violated`).
* C61 An integer as `counts` is not checked against the length at `axis = 0`: the remainder is dropped
  (`C61_remainder_violated`). At deeper axes empty lists at the very beginning are lost, since the search
  from the right skips them (`C61_leading_zero_violated`), and an integer raises if there are no items
  (`C61_nothing_violated`). Negative counts are not refused (`C61_negative_violated`).
* C57 (not proved, as the model has no NaN) `to_json` of NaN or infinity without `nan_string` etc. calls
  `rj::Writer::Double`, which refuses the number after the comma has been written: the text is not JSON.
* C62, C64 `ak.is_none`, `ak.from_regular` and `ak.to_regular` accept an axis that is deeper than the array
  and return the array as it is (`C62_too_deep_violated`, `C64_too_deep_violated`). Also, `is_none` with a
  negative axis compares an axis counted within one field with the depth counted from the whole array
  (`C62_negative_violated`), replaces the characters of strings by booleans, so that the result is not valid
  (`C62_strings_violated`), and looks only at the outer option of an option over a union of options
  (`C62_nested_violated`).
* C63 `ak.singletons` leaves arrays without option type unchanged (`C63_no_options_violated`), so the depth of
  the result depends on whether the type of the array has options; an option over a union of options gives
  lists with missing elements (`C63_nested_violated`).
* C64 `ak.to_regular` raises because of lists that are masked out and have another length
  (`C64_hidden_violated`).

* C65 `ak.run_lengths` raises for every array of at least two lists whose last list is empty while
  others are not (`C65_last_empty_violated`, universal). With an empty first list it marks the wrong
  place, because the boundary minus one is `-1`, which NumPy counts from the end: `[[], [1, 1]]` gives
  `[[], [1, 1]]` in place of `[[], [2]]`, and `[[], [5]]` raises (`C65_first_empty_violated`). Missing
  lists raise NotImplementedError (`C65_option_violated`), and a record with a field of numbers beside a
  field of lists gives a RecordArray that is not valid (`C65_records_violated`).

* C66 `ak.zip` of two arrays of strings returns one `Record` with the whole arrays as fields: the test for
  "strings or categoricals" (structure.py:624-643) already holds for the arrays that `broadcast_pack` has
  wrapped into a list (`C66_zip_strings_violated`); for the same reason lists of strings or categoricals are
  not combined item by item, whatever their lengths are (`C66_zip_categorical_violated`). `ak.zip` of
  `["ab", "c"]` and `[[1, 2], [3]]` takes the strings apart into characters, because lists with the same
  offsets are combined before strings are looked at (_util.py:834-930; `C66_zip_characters_violated`).
* C68 An element-wise function refuses `RegularArray(NumpyArray([1, 2, 3]), 2)`, which is valid and shows
  `[[1, 2]]`, with a NumPy reshape error: `deregulate` (_connect/_numpy.py:104-132) ignores that the content
  may be longer than the lists need (`C68_trailing_violated`).

* C69 `ak.where` with a complex and a real array returns numbers of neither (`C69_complex_violated`, from
  `C18_complex_violated`).
* C70 `ak.with_field` that replaces the only field of the records returns records of `what` and ignores the
  base (structure.py:950-952): the lists around the records are lost (`C70_only_field_violated`) and other
  lengths are accepted (`C70_only_field_length_violated`). Without a name, a record whose fields are called
  by numbers can get two fields of the same name (`C70_duplicate_violated`).
* C71 `ak.cartesian` with axis 0: `nested=True` of a dict always raises IndexError, since "last key is ignored
  below" (structure.py:3207) is not true (`C71_nested_dict_violated`); `nested=True` with an empty second array
  returns `[]`, since the RegularArray does not know its length (`C71_nested_empty_violated`); `nested=[0]` with
  three arrays makes lists of the length of the second array only (`C71_nested_some_violated`); for arrays with
  missing values the result is an IndexedArray of an option type, which is not valid (`C71_invalid_violated`).

* C72 `completely_flatten` takes the fields of a record as they are (`array.field(i)`), so it counts numbers
  beyond the length of the record (`C72_untrimmed_violated`, `C73_untrimmed_violated`). Records without fields
  have no parts, and `concatenate` and `xs[0]` raise errors (`C72_no_fields_violated`, `C73_no_fields_violated`).
* C73 `min` and `max` with `axis=None` ignore `initial` (`C73_initial_violated`). `argmin` and `argmax` with
  `axis=None` raise an error for an empty array (`C73_argmin_empty_violated`) and if any field or alternative
  has no numbers (`C73_argmin_part_violated`); the position is one in a field or alternative
  (`C73_argmin_record_violated`); for partitioned arrays the number of rows is added instead of the number of
  flattened elements (`C73_argmin_partitions_violated`).

* C74 `_HashableDict` calls `hash` with two arguments, so `to_categorical` raises a TypeError for records, which
  its documentation says can be categories (`C74_records_violated`). Python's `1 == True` makes one category of
  them (`C74_union_violated`). Masks shorter than their content and arrays with only missing values raise an
  IndexError (`C74_mask_violated`, `C74_all_missing_violated`).
* C75 `_categorical_equal` uses the number of a missing value as a position from the end, so `None` may equal a
  category (`C75_missing_violated`) or differ from `None` (`C75_missing_same_violated`).

* C76 An array of zero strings cannot be compared with a single string: `broadcast_and_apply` repeats an input
  of size 1 only if the largest size is more than 1, so sizes 0 and 1 raise (`C76_empty_violated`). NumPy would
  return an empty array.

* C77 `firsts` of lists of the fixed size 0 raises "index out of range", because the slice `[:, 0]` checks the size
  even if no list is left (`C77_regular_violated`). With `axis=2` it inherits the error of `num` for sliced arrays
  (C48) and returns `None` for lists that are not empty (`C77_sliced_violated`).

* C78 `concatenate` with `axis=1` replaces missing lists by `fill_none(x, [])`, which in an UnmaskedArray also
  replaces the missing items of the lists (`C78_unmasked_violated`). `nested_tags_index` counts the arrays in 8 bits:
  for 128 arrays no tag is written (`C78_many_violated`). Strings at the axis are taken for lists of numbers
  (`C78_strings_violated`).

* C79 `full_like`, `zeros_like` and `ones_like` turn strings of a fixed size into strings of any size
  (`C79_type_violated`), and fill the categories of a categorical array, which are then equal
  (`C79_categorical_violated`).

* C81 `to_numpy` of an array of empty lists has no rows (`C81_empty_violated`). Strings lose zeros at their end
  (`C81_zeros_violated`). Rectangular arrays are rejected if a RegularArray has a ragged remainder in its content
  (`C81_remainder_violated`). The missing fields of records become uninitialised numbers
  (`C81_masked_record_violated`). A RecordArray that is shorter than its fields gets their length
  (`C81_untrimmed_violated`). Missing lists become lists of missing numbers (`C81_missing_list_violated`). In
  addition, `allow_missing=False` is ignored for VirtualArrays (convert.py:249; not modelled).

* C82 `from_numpy` of an array of strings with the shape (2, 3, 0) has 1 item in place of 2
  (`C82_strings_violated`); `regulararray=True` raises for such shapes (`C82_regular_violated`); a masked array of
  strings without a mask array raises if it has several dimensions (`C82_masked_strings_violated`).

* C83 `strings_astype` raises for an array without strings, such as an empty array or an empty partition
  (`C83_empty_violated`), and for strings that a mask hides and that are not numbers (`C83_hidden_violated`).

* C84 `size` with an axis that the array does not have gives the size of the last axis (`C84_deep_violated`); it
  raises a `TypeError` for records without fields (`C84_fields_violated`), and it raises for lists of variable length
  although `to_numpy` accepts them if the lengths are equal (`C84_even_violated`).

* C85 `argcombinations` raises for arrays of unknown type such as `[]`, because EmptyArray::localindex gives an array
  of integers without lists (`C85_unknown_violated`), and leaves its buffers for fixed-size lists shorter than `n`
  (`C85_regular_violated`).

* C86 `with_name` simplifies every union of the array, so that the integers of a field of integers and floating point
  numbers change their type (`C86_union_violated`). An IndexedArray with a name of its own hides the new name
  (`C86_indexed_violated`).

* C87 `fields` does not list the fields that only some alternatives of a union have (`C87_names_violated`), and names that
  it does not list but that begin with a digit select a slot (`C87_number_violated`).

* C88 `argcartesian` has the defects of `cartesian` for `nested=True` (`C88_nested_empty_violated`,
  `C88_nested_dict_violated`), but its result is always valid (unlike `C71_invalid_violated`).

* C89 `mean` of large integers is wrong, because the sum wraps around in 64 bits (`C89_overflow_violated`), unlike
  `numpy.mean`; so is `ptp` (`C89_ptp_overflow_violated`, as in NumPy). `ptp` with `axis=None` raises for arrays without
  numbers (`C89_ptp_empty_violated`), documented to give `None`, and always raises with `mask_identity=False`
  (`C89_ptp_identity_violated`).

* C90 `with_parameter` accepts single records (`allow_record=True`) but always raises an AttributeError for them, because
  their class has no `withparameter` (`C90_record_violated`).

* C91 The JSON of a form is not always read back. Sizes of RegularForms above 2³¹ raise, because `IsInt` is about 32 bits
  (`C91_size_violated`); names of fields end at the character NUL (`C91_nul_violated`); dates lose their units, because
  `primitive` goes before `format` (`C91_units_violated`). The class "ListOffsetArray", without a width, reads an
  uninitialised variable (`C91_generic_violated`): `isgen` is true, so that `is64` is never assigned (Content.cpp:296-299
  and 364-371). `str2form` compares only as many characters as it is given, so that "", "i6" or "u" are widths
  (`C91_width_violated`).

* C92 An array that can be shown cannot always be pickled and loaded. Packing leaves the content of an array of no lists
  of fixed size as it is, and loading it may raise (`C92_empty_violated`). Lists of fixed size zero cannot be packed and so
  not pickled (`C92_size_zero_violated`). Categories come back as plain values (`C92_type_violated`).

* C93 The documentation of `ak.moment` says that equal weights are the same as no weights and that `n=0` is the sum of
  weights. But the weights are raised to the power as well (`C93_moment_weights_violated`, reducers.py:873), and `n=0` is
  divided by the sum of weights (`C93_moment_zero_violated`). `ak.var` with `ddof` also changes with equal weights
  (`C93_ddof_weights_violated`).

* C95 `ak.nan_to_num` makes the NumpyArrays anew without their parameters (structure.py:4377), so the characters of strings
  are no longer marked as such, and the result is not a valid array (`C95_strings_violated`).

## 5. Not modelled

Python-level dispatch (`ak.operations` wrappers beyond the functions cited), numba,
autograd/JAX, Arrow/Parquet, CUDA kernels, RapidJSON, memory reference counting,
64-bit overflow of offsets, floating-point rounding.
