{
 "claims": [
  {
   "property": "C01",
   "status": "proved",
   "theorems": [
    "Verif.IntervalSet.C01_select_is_union",
    "Verif.IntervalSet.C01_empty_range_refused"
   ],
   "note": ""
  },
  {
   "property": "C02",
   "status": "partial",
   "theorems": [
    "Verif.IntervalSet.C02_remove_violated",
    "Verif.IntervalSet.C02_remove_enclosing_is_noop",
    "Verif.IntervalSet.C02_remove_is_difference_partial",
    "Verif.IntervalSet.C02_empty_range_refused"
   ],
   "note": "The code violates the full statement (C02_remove_violated): a range strictly enclosing every selected index is reported as removed but nothing is removed. The partial theorem proves set difference in all other cases."
  },
  {
   "property": "C03",
   "status": "proved",
   "theorems": [
    "Verif.IntervalSet.C03_canonical",
    "Verif.IntervalSet.C03_same_indices_same_form",
    "Verif.IntervalSet.C03_find_exact"
   ],
   "note": ""
  },
  {
   "property": "C04",
   "status": "partial",
   "theorems": [
    "Verif.IntervalMap.C04_violated",
    "Verif.IntervalMap.C04_enclosing_violated",
    "Verif.IntervalMap.C04_find_undefined_iff",
    "Verif.IntervalMap.C04_lookup_partial",
    "Verif.IntervalMap.C04_store_lookup_partial"
   ],
   "note": "The property fails twice: a key below the first range decrements begin() (undefined behaviour, C04_violated; exactly when: C04_find_undefined_iff), and insert checks only the two ends of the new range, so a range strictly enclosing an existing one is accepted (C04_enclosing_violated). Proved instead: with libstdc++'s behaviour of --begin(), every history without enclosing insertions gives exact lookups and no overlap (C04_lookup_partial); and for maps built the way a data store builds them every non-negative column is looked up exactly, with no undefined behaviour (C04_store_lookup_partial)."
  },
  {
   "property": "C05",
   "status": "partial",
   "theorems": [
    "Verif.DataStore.C05_row_loop_violated",
    "Verif.DataStore.C05_row_pieces_violated",
    "Verif.DataStore.C05_uneven_rows_violated",
    "Verif.DataStore.C05_refused_rows_violated",
    "Verif.DataStore.C05_violated",
    "Verif.DataStore.C05_partial",
    "Verif.DataStore.C05_status_partial"
   ],
   "note": "Proved for all histories of column and row concatenations, horizontal concatenations, settings and refused calls in which rows are added only below columns that do not share their last block, and incomplete rows are completed by pieces with the same number of rows (Supported). Outside of these the code fails, shown by one witness per kind: endless loop (C05_row_loop_violated), null pointer (C05_row_pieces_violated, C05_uneven_rows_violated), lost rows after a refused call (C05_refused_rows_violated). Data of blocks is private to them: aliasing with copy_data = 0 is not modelled."
  },
  {
   "property": "C06",
   "status": "partial",
   "theorems": [
    "Verif.DataStore.C06_incomplete_violated",
    "Verif.DataStore.C06_partial",
    "Verif.DataStore.C06_complete_partial"
   ],
   "note": "Proved for supported histories and positions for which a value has been supplied (in complete stores all positions, C06_complete_partial). In incomplete rows set_element dereferences a null pointer (C06_incomplete_violated)."
  },
  {
   "property": "C07",
   "status": "partial",
   "theorems": [
    "Verif.DataStore.C07_endless_violated",
    "Verif.DataStore.C07_violated",
    "Verif.DataStore.C07_partial"
   ],
   "note": "Proved for supported histories, slices of complete stores. Violated elsewhere: extract_column does not end after two full rows have been added (C07_endless_violated). The order of the output of extract_slice is always column-major; the row-major conversion is part of extract_selection (C08)."
  },
  {
   "property": "C08",
   "status": "partial",
   "theorems": [
    "Verif.DataStore.C08_row_major_violated",
    "Verif.DataStore.C08_overrun_violated",
    "Verif.DataStore.C08_violated",
    "Verif.DataStore.C08_partial"
   ],
   "note": "Proved for column-major extraction of every selection, and for row-major extraction when the selected columns are consecutive, on complete stores with supported histories. In row-major order two column intervals give a wrong matrix and writes behind the array (C08_row_major_violated), or overrun the temporary array (C08_overrun_violated)."
  },
  {
   "property": "C09",
   "status": "partial",
   "theorems": [
    "Verif.Options.C09_violated",
    "Verif.Options.C09_read_back",
    "Verif.Options.C09_read_back_partial",
    "Verif.Options.C09_refused",
    "Verif.Options.C09_others",
    "Verif.Options.C09_others_read",
    "Verif.Options.C09_history",
    "Verif.Options.C09_history_none",
    "Verif.Options.C09_locked",
    "Verif.Options.C09_public",
    "Verif.Options.C09_public_refused",
    "Verif.Options.C09_key_readable"
   ],
   "note": "Literally violated only for strings: a label of a categorical option spelt with other capitals or blanks is accepted and read back in its registered spelling (C09_violated; C09_read_back says exactly what is read). Literal for numbers, free-form strings and registered labels (C09_read_back_partial). Frame, refusal, locking and histories are proved in full."
  },
  {
   "property": "C10",
   "status": "partial",
   "theorems": [
    "Verif.Options.C10_registered",
    "Verif.Options.C10_violated",
    "Verif.Options.C10_extent",
    "Verif.Options.C10_partial",
    "Verif.Options.C10_integers"
   ],
   "note": "Violated by NaN: set skips the NaN checks of validate (C10_violated). C10_extent: after any history a numeric option is within its registered bounds or holds NaN; C10_partial for histories that offer no NaN; C10_integers unconditional. Loading from a file, which checks nothing, is not a set call and not covered."
  },
  {
   "property": "C11",
   "status": "proved",
   "theorems": [
    "Verif.Options.C11_idempotent",
    "Verif.Options.C11_normal_form",
    "Verif.Options.C11_same_option",
    "Verif.Options.C11_other_option",
    "Verif.Options.C11_library_names",
    "Verif.Options.C11_library"
   ],
   "note": "Strings are all byte lists; white space and case folding of the C locale, non-multiline anchors as in libstdc++. Requires registered names in normal form, proved of all names the library registers (C11_library_names)."
  },
  {
   "property": "C12",
   "status": "proved",
   "theorems": [
    "Verif.Persist.C12_registry_round_trip",
    "Verif.Persist.C12_file_options"
   ],
   "note": "Any traversal order of the hash table, any number of options of the four types. The registry read into must know the saved options with the same types (a fresh handle of the same type); at file level the option sets are equal. Validation of loaded values is absent in the code and not part of the property."
  },
  {
   "property": "C13",
   "status": "proved",
   "theorems": [
    "Verif.Persist.C13_value_round_trip",
    "Verif.Persist.C13_sequence_round_trip",
    "Verif.Persist.C13_file_round_trip",
    "Verif.Persist.C13_wide_file_refused"
   ],
   "note": "Values (scalars, strings, vectors, nested vectors), sequences and complete files of every kind of handle, including 32-bit files read by 64-bit programs; 64-bit files are refused by 32-bit programs. Reals are bit patterns. Hypotheses: integers and sizes fit the integer type of the writer, counts match the containers."
  },
  {
   "property": "C14",
   "status": "partial",
   "theorems": [
    "Verif.Persist.C14_unknown_type",
    "Verif.Persist.C14_negative_count",
    "Verif.Persist.C14_truncated_tree",
    "Verif.Persist.C14_truncated_violated",
    "Verif.Persist.C14_violated",
    "Verif.Persist.C14_value_safe",
    "Verif.Persist.C14_bad_count_refused",
    "Verif.Persist.C14_any_bytes_partial",
    "Verif.Persist.C14_truncated_partial"
   ],
   "note": "Violated: an unknown handle type leads to a null pointer call (C14_unknown_type), a negative or huge number of trees or classifiers to an uncaught std::length_error (C14_negative_count), and a nearest-neighbours file cut inside the header of its search tree can load successfully (C14_truncated_tree). The partial theorems: reads never leave the bytes and bad element counts are refused for arbitrary bytes, and files of all handles cut anywhere else are refused. Deep recursion on crafted trees and unchecked loaded indices/enumerators are not modelled."
  },
  {
   "property": "C15",
   "status": "proved",
   "theorems": [
    "Verif.Persist.C15_sequence_size",
    "Verif.Persist.C15_file_size",
    "Verif.Persist.C15_saves",
    "Verif.Persist.C15_no_overflow",
    "Verif.Persist.C15_user_data_size"
   ],
   "note": "For every kind of handle and all contents; saving never writes beyond the reserved size even when it fails."
  },
  {
   "property": "C16",
   "status": "proved",
   "theorems": [
    "Verif.ErrorStack.C16_trace_content",
    "Verif.ErrorStack.C16_trace_bounded",
    "Verif.ErrorStack.C16_first_error_reported",
    "Verif.ErrorStack.C16_overflow_marked",
    "Verif.ErrorStack.C16_print_safe",
    "Verif.ErrorStack.C16_mesg_char_undefined_when_empty"
   ],
   "note": ""
  },
  {
   "property": "C17",
   "status": "proved",
   "theorems": [
    "Verif.DaVector.C17_vector_refines_list",
    "Verif.DaVector.C17_vector_contents",
    "Verif.DaVector.C17_copy",
    "Verif.DaVector.C17_moved_from_unusable",
    "Verif.DaVector.C17_clear_restores",
    "Verif.DaVector.C17_push_own_element"
   ],
   "note": ""
  },
  {
   "property": "C18",
   "status": "proved",
   "theorems": [
    "Verif.Cache.C18_lru_cache",
    "Verif.Cache.C18_put",
    "Verif.Cache.C18_failed_put_leaks"
   ],
   "note": "Any interleaving of the critical sections and column copies of any threads, null data included. A failed put (null data) loses the slots it acquired (C18_failed_put_leaks)."
  },
  {
   "property": "C19",
   "status": "proved",
   "theorems": [
    "Verif.Parse.C19_integer_cells"
   ],
   "note": "All strings, all thousands separators, any integer range containing 0 (int64 and int32 are instances). A digit as separator is treated as a separator, as in the code."
  },
  {
   "property": "C20",
   "status": "partial",
   "theorems": [
    "Verif.Tokenizer.C20_violated",
    "Verif.Tokenizer.C20_round_trip_partial",
    "Verif.Tokenizer.C20_default_partial"
   ],
   "note": "Proved for cells without NUL, for all options that fit the writer (quotes escaped or doubled, any distinguishable characters, mixed line ends) and all cuts of the file. A cell with a NUL loses the text behind it (C20_violated)."
  },
  {
   "property": "C21",
   "status": "partial",
   "theorems": [
    "Verif.Tokenizer.C21_violated",
    "Verif.Tokenizer.C21_mark_cut_violated",
    "Verif.Tokenizer.C21_capacity_violated",
    "Verif.Tokenizer.C21_chunks_partial",
    "Verif.Tokenizer.C21_ascii_partial",
    "Verif.Tokenizer.C21_skip_empty_violated"
   ],
   "note": "Proved for all cuts of files in which no line is shorter than a line before it, when no later chunk begins with (a part of) a byte order mark in the first line; in particular for files without 0xEF. The other cases are violated: C21_violated, C21_mark_cut_violated, C21_capacity_violated, C21_skip_empty_violated."
  },
  {
   "property": "C22",
   "status": "partial",
   "theorems": [
    "Verif.Tokenizer.C22_violated",
    "Verif.Tokenizer.C22_capacity_violated",
    "Verif.Tokenizer.C22_failed_read_violated",
    "Verif.Tokenizer.C22_reported_partial",
    "Verif.Tokenizer.C22_dropped_partial",
    "Verif.Tokenizer.C22_regular_partial"
   ],
   "note": "Longer rows are reported, and unterminated quotes when the unfinished line has at least as many complete fields as there are lines, for files without shorter lines; otherwise the unfinished line is dropped silently (C22_violated, C22_dropped_partial). Failed reads are not reported (C22_failed_read_violated), and files with many shorter lines lose their rest (C22_capacity_violated)."
  },
  {
   "property": "C23",
   "status": "proved",
   "theorems": [
    "Verif.CsvTable.C23_cells",
    "Verif.CsvTable.C23_accepts",
    "Verif.CsvTable.C23_no_ub",
    "Verif.CsvTable.C23_uninitialised_pointer_freed"
   ],
   "note": "Cell parsing is an arbitrary function (see C19, C45). Starts from the tokenised lines. With uninitialised output variables a ragged file with headings makes the call free the caller's pointer (C23_uninitialised_pointer_freed)."
  },
  {
   "property": "C24",
   "status": "proved",
   "theorems": [
    "Verif.AutoDetect.C24_columns",
    "Verif.AutoDetect.C24_type_of_cells",
    "Verif.AutoDetect.C24_order_independent",
    "Verif.AutoDetect.C24_dates_become_numbers"
   ],
   "note": "Any result of reading the cells; 'accepts' means accepted by the library's readers, which take a date for a number (C24_dates_become_numbers). The conversion of the typed columns into the data store is not part of it."
  },
  {
   "property": "C25",
   "status": "proved",
   "theorems": [
    "Verif.Sort.C25_heapSort",
    "Verif.Sort.C25_introSort",
    "Verif.Sort.C25_introSort_nan",
    "Verif.Sort.C25_bucketSort",
    "Verif.Sort.C25_nan_unsorted"
   ],
   "note": "For values that < orders (no NaN).  With a NaN the introsort still ends, in bounds, with a permutation (C25_introSort_nan), but the others may be out of order (C25_nan_unsorted).  The bucket sort is proved for values that are categories below n_cat and buckets of the size the caller allocates."
  },
  {
   "property": "C26",
   "status": "partial",
   "theorems": [
    "Verif.Partition.C26_all_left",
    "Verif.Partition.C26_nan_hang",
    "Verif.Partition.C26_stride",
    "Verif.Partition.C26_violated",
    "Verif.Partition.C26_partial"
   ],
   "note": "Violated: if every sample satisfies the split the last is put right (C26_all_left, C26_violated); NaN at both ends never ends (C26_nan_hang); the histogram versions read the bins with the leading dimension of X (C26_stride).  C26_partial: correct in all other cases."
  },
  {
   "property": "C27",
   "status": "proved",
   "theorems": [
    "Verif.Histogram.C27_bin",
    "Verif.Histogram.C27_nan"
   ],
   "note": "For any thresholds in non-decreasing order (a NaN value included, C27_nan); that compute_thresholds produces such is part of C51."
  },
  {
   "property": "C28",
   "status": "partial",
   "theorems": [
    "Verif.Tree.C28_partial",
    "Verif.Tree.C28_ends",
    "Verif.Tree.C28_hist_onevall",
    "Verif.Tree.C28_violated",
    "Verif.Tree.C28_threshold_zero",
    "Verif.Tree.C28_midpoint",
    "Verif.Tree.C28_bootstrap",
    "Verif.Tree.C28_padding"
   ],
   "note": "Violated: one-vs-all splits of histograms store the bin number but prediction compares it with the value; one-vs-all splits in bootstrap samples; feature threshold 0; midpoints rounded to the lower value; histograms of data with padding (C28_violated, C28_hist_onevall, C28_threshold_zero, C28_midpoint, C28_bootstrap, C28_padding). C28_partial excludes exactly these; C28_ends holds without conditions."
  },
  {
   "property": "C29",
   "status": "proved",
   "theorems": [
    "Verif.Heap.C29_heap",
    "Verif.Heap.C29_nan"
   ],
   "note": "For any linear order on the distances and k >= 1 (the code dereferences distances[0] for k = 0). C29_nan: with NaN, whose order is not linear, the property fails."
  },
  {
   "property": "C30",
   "status": "partial",
   "theorems": [
    "Verif.NnTree.C30_kd_partial",
    "Verif.NnTree.C30_ball_partial",
    "Verif.NnTree.C30_ball_threads_partial",
    "Verif.NnTree.C30_kd_violated",
    "Verif.NnTree.C30_norms_exact",
    "Verif.NnTree.C30_ball_violated"
   ],
   "note": "Exact over the real numbers for every admissible metric, data set, leaf size, radius and query, for any nth_element result and thread schedule. Two gaps in the code: euclidean_gemm with more queries than samples reads outside A_norms (C30_kd_violated, C30_norms_exact), and the ball tree root can miss samples with more than 256 threads (C30_ball_violated; exact for up to 256 by C30_ball_threads_partial). Rounding is not modelled."
  },
  {
   "property": "C31",
   "status": "partial",
   "theorems": [
    "Verif.NnTree.C31_kd_partial",
    "Verif.NnTree.C31_ball_partial",
    "Verif.NnTree.C31_kd_violated",
    "Verif.NnTree.C31_ball_violated"
   ],
   "note": "Exact over the real numbers, both trees, any number of threads, k >= 1, distances not above numeric_limits::max(). Gap: euclidean_gemm with more queries than samples (C31_kd_violated, C31_ball_violated). Rounding is not modelled."
  },
  {
   "property": "C32",
   "status": "partial",
   "theorems": [
    "Verif.RadiusBrute.C32_brute_exact_partial",
    "Verif.RadiusBrute.C32_minkowski_two",
    "Verif.RadiusBrute.C32_minkowski_violated"
   ],
   "note": "Exact for every metric and thread distribution except Minkowski with p = 2 (the default power), where the code compares the squared distance with the unsquared radius (C32_minkowski_two, C32_minkowski_violated). Distances are exact; only the brute-force method is covered here, the trees are C30/C31."
  },
  {
   "property": "C33",
   "status": "partial",
   "theorems": [
    "Verif.Dbscan.C33_serial_partial",
    "Verif.Dbscan.C33_parallel_violated",
    "Verif.Dbscan.C33_parallel_merges_violated",
    "Verif.Dbscan.C33_parallel_partial",
    "Verif.RadiusBrute.C33_brute_serial_partial"
   ],
   "note": "The serial method satisfies the property (C33_serial_partial). The parallel method, chosen whenever more than one thread is available, does not: it can split one cluster in two and merge clusters that share only a border sample (C33_parallel_violated, C33_parallel_merges_violated); C33_parallel_partial states what holds for every interleaving."
  },
  {
   "property": "C34",
   "status": "proved",
   "theorems": [
    "Verif.Quantile.C34_quantile",
    "Verif.Quantile.C34_rejects"
   ],
   "note": "Exact arithmetic (the double variant without rounding); std::nth_element and std::sort are arbitrary within their contract."
  },
  {
   "property": "C35",
   "status": "proved",
   "theorems": [
    "Verif.Split.C35_split_copies_rows",
    "Verif.Split.C35_split_refuses",
    "Verif.Split.C35_split_partitions_rows"
   ],
   "note": "The entries of a caller-supplied shuffle array are assumed to be row indices; the code does not check them."
  },
  {
   "property": "C36",
   "status": "proved",
   "theorems": [
    "Verif.Stratified.C36_stratified_shares",
    "Verif.Stratified.C36_full_use_test_share",
    "Verif.Stratified.C36_stratified_refuses",
    "Verif.Stratified.C36_plain_shuffle",
    "Verif.Stratified.C36_shuffle_refuses"
   ],
   "note": "Shares are exact rationals; the floating-point rounding of the code and the conversion of floating-point class labels are not modelled."
  },
  {
   "property": "C37",
   "status": "proved",
   "theorems": [
    "Verif.Copies.C37_row_to_column",
    "Verif.Copies.C37_column_to_row",
    "Verif.Copies.C37_convert_precision",
    "Verif.Copies.C37_round_trip",
    "Verif.Copies.C37_switch_order_copy",
    "Verif.Copies.C37_switch_order_refused"
   ],
   "note": ""
  },
  {
   "property": "C38",
   "status": "partial",
   "theorems": [
    "Verif.Blocking.C38_blocking_scheme_tiles",
    "Verif.Blocking.C38_blocking_scheme_sizes",
    "Verif.Blocking.C38_tall_skinny_tiles",
    "Verif.Blocking.C38_tall_skinny_limit_violated",
    "Verif.Blocking.C38_tall_skinny_limit_violated_more",
    "Verif.Blocking.C38_tall_skinny_limit_partial",
    "Verif.Blocking.C38_tree_blocks_tile_partial",
    "Verif.Blocking.C38_tree_blocks_violated",
    "Verif.Blocking.C38_forest_threads"
   ],
   "note": "Tiling is proved for the general, tall-skinny and forest schemes. The tree-build scheme skips samples for more than 256 threads (C38_tree_blocks_violated) and the tall-skinny scheme exceeds its block limit (C38_tall_skinny_limit_violated); the partial theorems cover at most 256 threads / limits up to 256."
  },
  {
   "property": "C39",
   "status": "proved",
   "theorems": [
    "Verif.Forest.C39_vote",
    "Verif.Forest.C39_trees",
    "Verif.Forest.C39_score",
    "Verif.Forest.C39_static"
   ],
   "note": "For any division of the iterations among threads numbered below n_threads (C39_static: the default static schedule is one, although the team can be larger than n_threads) and any interleaving of the accesses. C39_trees links it to the trees of C28/C54."
  },
  {
   "property": "C40",
   "status": "partial",
   "theorems": [
    "Verif.DataStore.C40_moved_label_violated",
    "Verif.DataStore.C40_replaced_label_violated",
    "Verif.DataStore.C40_lookup_first",
    "Verif.DataStore.C40_label_last",
    "Verif.DataStore.C40_fresh_partial",
    "Verif.DataStore.C40_hconcat_violated"
   ],
   "note": "Violated when a label is reused for another column or a column is labelled again (C40_moved_label_violated, C40_replaced_label_violated), and after horizontal_concat (C40_hconcat_violated). Exact behaviour of both lookups (C40_lookup_first, C40_label_last); proved for histories with fresh labels and columns (C40_fresh_partial)."
  },
  {
   "property": "C41",
   "status": "proved",
   "theorems": [
    "Verif.Categorical.C41_categorical_exact",
    "Verif.Categorical.C41_order_independent",
    "Verif.Categorical.C41_empty_refused",
    "Verif.Categorical.C41_nan_undefined"
   ],
   "note": ""
  },
  {
   "property": "C42",
   "status": "proved",
   "theorems": [
    "Verif.KSelect.C42_brute_force",
    "Verif.KSelect.C42_kernel"
   ],
   "note": "Distance values are an arbitrary function (kernels not evaluated); NaN not modelled. Result order among equal distances is left open because it depends on the schedule."
  },
  {
   "property": "C43",
   "status": "partial",
   "theorems": [
    "Verif.Cache.C43_violated",
    "Verif.Cache.C43_found_partial"
   ],
   "note": "Violated when a key is stored again (C43_violated); proved for all histories that store a key only while it is absent."
  },
  {
   "property": "C44",
   "status": "proved",
   "theorems": [
    "Verif.SvmKernel.C44_kernel_columns",
    "Verif.SvmKernel.C44_warm_start",
    "Verif.SvmKernel.C44_nu_start",
    "Verif.SvmKernel.C44_nu_blocks",
    "Verif.SvmKernel.C44_oversized_set_wrong"
   ],
   "note": "Main loop, warm start and the parallel start of nu-SVM, with every interleaving of the threads' cache writes. Kernel evaluation is an arbitrary function of the sample. C44_oversized_set_wrong shows what goes wrong outside the solver's own calls."
  },
  {
   "property": "C45",
   "status": "partial",
   "theorems": [
    "Verif.Parse.C45_rubbish_accepted",
    "Verif.Parse.C45_exponent_overflow",
    "Verif.Parse.C45_leading_zeros",
    "Verif.Parse.C45_violated",
    "Verif.Parse.C45_empty_option",
    "Verif.Parse.C45_real_cells_partial"
   ],
   "note": "Exact rational arithmetic. Violated: text after the number is ignored, a long exponent overflows an int, leading zeros count as significant digits, empty format options read past the string (C45_rubbish_accepted, C45_exponent_overflow, C45_leading_zeros, C45_empty_option). Proved: every grammatical number in range is read exactly."
  },
  {
   "property": "C46",
   "status": "partial",
   "theorems": [
    "Verif.Persist.C46_reload",
    "Verif.Persist.C46_violated",
    "Verif.Persist.C46_training_data_partial",
    "Verif.Persist.C46_extent"
   ],
   "note": "Violated for row-major matrices with one column, at least two rows and a leading dimension above one (C46_violated, exact extent C46_extent); proved otherwise."
  },
  {
   "property": "C47",
   "status": "partial",
   "theorems": [
    "Verif.Options.C47_violated",
    "Verif.Options.C47_extent",
    "Verif.Options.C47_partial"
   ],
   "note": "Violated: refresh runs before the option is looked up (C47_violated); C47_extent says exactly what a refused call does; C47_partial where refresh does nothing."
  },
  {
   "property": "C48",
   "status": "partial",
   "theorems": [
    "Verif.Options.C48_violated",
    "Verif.Options.C48_partial"
   ],
   "note": "Violated for negative lengths, converted to size_t before the comparison (C48_violated); proved for lengths from 0 up."
  },
  {
   "property": "C49",
   "status": "proved",
   "theorems": [
    "Verif.Sort.C49_counts"
   ],
   "note": "std::sort is any sorting function."
  },
  {
   "property": "C51",
   "status": "partial",
   "theorems": [
    "Verif.Histogram.C51_exact_partial",
    "Verif.Histogram.C51_violated"
   ],
   "note": "Violated for float (C51_violated, with an exact model of binary32: 150000 values and 290 bins write one threshold too many).  Missing from the partial theorem: it is in exact arithmetic, so it does not say for which sizes float and double are safe."
  },
  {
   "property": "C50",
   "status": "partial",
   "theorems": [
    "Verif.TreeSplit.C50_violated",
    "Verif.TreeSplit.C50_partial"
   ],
   "note": "Violated for minimum 3 with tied values (C50_violated): ties are counted twice.  C50_partial: true for a minimum of 1 or 2 (the default is 2) or without ties; missing: minimum above 2 with ties in places where no double counting happens."
  },
  {
   "property": "C53",
   "status": "partial",
   "theorems": [
    "Verif.TreeSplit.C53_violated",
    "Verif.TreeSplit.C53_hist",
    "Verif.TreeSplit.C53_onevall_partial"
   ],
   "note": "Violated for one-vs-all on raw data in a bootstrap sample (C53_violated): the table of categories counts each drawn sample once, the totals count it with its frequency.  C53_hist: the histogram strategies are right; C53_onevall_partial: raw one-vs-all is right without repetitions."
  },
  {
   "property": "C52",
   "status": "partial",
   "theorems": [
    "Verif.Tree.C52_partial",
    "Verif.Tree.C52_violated"
   ],
   "note": "Violated for one-vs-all splits, where predict_proba compares with a threshold that is never set (C52_violated); C52_partial covers trees without such splits."
  },
  {
   "property": "C54",
   "status": "proved",
   "theorems": [
    "Verif.Tree.C54_leaf"
   ],
   "note": "For every state of every fit, with arbitrary comparisons of values."
  },
  {
   "property": "C55",
   "status": "partial",
   "theorems": [
    "Verif.Tree.C55_partial",
    "Verif.Tree.C55_depth_zero",
    "Verif.Tree.C55_second_fit",
    "Verif.Tree.C55_violated"
   ],
   "note": "Violated for maximum depth 0 (0 leaves are reported) and after a second fit (depth is not reset); C55_partial covers the rest."
  },
  {
   "property": "C56",
   "status": "partial",
   "theorems": [
    "Verif.Forest.C56_partial",
    "Verif.Forest.C56_class_overflow",
    "Verif.Forest.C56_violated",
    "Verif.Forest.C56_silent",
    "Verif.Forest.C56_null_tree"
   ],
   "note": "Violated: refresh() is not overridden, so setting new data leaves the handle trained (C56_violated, C56_class_overflow, C56_silent), and a fit whose histograms fail leaves null trees (C56_null_tree). C56_partial: right after a successful fit."
  },
  {
   "property": "C57",
   "status": "proved",
   "theorems": [
    "Verif.Forest.C57_mean"
   ],
   "note": "In exact arithmetic; same divisions and interleavings as C39."
  },
  {
   "property": "C58",
   "status": "partial",
   "theorems": [
    "Verif.Tokenizer.C58_violated",
    "Verif.Tokenizer.C58_terminated_partial"
   ],
   "note": "Proved for files in which no line is shorter than a line before it, for all options and cuts, also for files that end within quotes or whose reading fails. With shorter lines the NUL of the last word can be missing (C58_violated)."
  },
  {
   "property": "C59",
   "status": "partial",
   "theorems": [
    "Verif.Tokenizer.Reader.C59_violated",
    "Verif.Tokenizer.Reader.C59_report_violated",
    "Verif.Tokenizer.Reader.C59_options_iff",
    "Verif.Tokenizer.Reader.C59_fresh_partial"
   ],
   "note": "\"row start\" set back to 0 has no effect and the report of ignored lines keeps lines of earlier files (C59_violated, C59_report_violated); C59_options_iff gives the exact extent for the options."
  },
  {
   "property": "C60",
   "status": "partial",
   "theorems": [
    "Verif.Tokenizer.C60_violated",
    "Verif.Tokenizer.C60_skipped_partial"
   ],
   "note": "Proved when quotes are doubled or do not occur in cells of skipped rows; an escaped quote in a skipped row is not seen as escaped (C60_violated)."
  },
  {
   "property": "C61",
   "status": "partial",
   "theorems": [
    "Verif.Tokenizer.C61_violated",
    "Verif.Tokenizer.C61_crnl_run_partial",
    "Verif.Tokenizer.C61_cr_run_partial",
    "Verif.Tokenizer.C61_line_ends_partial"
   ],
   "note": "Proved for carriage return and newline with any options of Lines, and for lone carriage returns without comments and skipped lines; C61_line_ends_partial is about all cuts of files without shorter lines. Behind a comment line that ends in a lone carriage return a delimiter is lost (C61_violated)."
  },
  {
   "property": "C62",
   "status": "proved",
   "theorems": [
    "Verif.Tokenizer.Reader.C62_skip_rows",
    "Verif.Tokenizer.Reader.C62_plus"
   ],
   "note": ""
  },
  {
   "property": "C63",
   "status": "proved",
   "theorems": [
    "Verif.Half.C63_exact"
   ],
   "note": "Proved for all 2^16 patterns, on the bit operations of the code."
  },
  {
   "property": "C64",
   "status": "partial",
   "theorems": [
    "Verif.Half.C64_rounding_partial",
    "Verif.Half.C64_rounding_iff",
    "Verif.Half.C64_violated"
   ],
   "note": "C64_rounding_iff: the result is rounded correctly exactly when the number is not strictly between 2^-25 and 2^-24 in size; these become 0 although 2^-24 is nearer (C64_violated). The code tests exponent >= -24 and should test >= -25."
  },
  {
   "property": "C65",
   "status": "proved",
   "theorems": [
    "Verif.HalfBlas.C65_syrk"
   ],
   "note": "Exact arithmetic over any commutative ring; cblas_ssyrk and the external half-precision product are taken by contract."
  },
  {
   "property": "C66",
   "status": "proved",
   "theorems": [
    "Verif.HalfBlas.C66_dot",
    "Verif.HalfBlas.C66_gemv",
    "Verif.HalfBlas.C66_omatcopy"
   ],
   "note": "Exact arithmetic over any commutative ring; increments are natural numbers, since the code multiplies them with the index (negative increments, allowed in BLAS, would leave the vector)."
  },
  {
   "property": "C67",
   "status": "partial",
   "theorems": [
    "Verif.HalfBlas.C67_frobenius",
    "Verif.HalfBlas.C67_norms_partial",
    "Verif.HalfBlas.C67_violated",
    "Verif.HalfBlas.C67_empty",
    "Verif.HalfBlas.C67_letters"
   ],
   "note": "Exact arithmetic over any ordered field with a square root, NaN as extra value, no infinities. C67_frobenius: NaN elements are left out of the Frobenius norm, so C67_violated; the other norms and matrices without NaN are proved."
  },
  {
   "property": "C68",
   "status": "proved",
   "theorems": [
    "Verif.HalfBlas.C68_iamax",
    "Verif.HalfBlas.C68_empty",
    "Verif.HalfBlas.C68_nan"
   ],
   "note": "With NaN as first element the result is 0 (C68_nan)."
  },
  {
   "property": "C69",
   "status": "partial",
   "theorems": [
    "Verif.Smo.C69_size",
    "Verif.Smo.C69_working_set_c",
    "Verif.Smo.C69_working_set_nu_partial",
    "Verif.Smo.C69_valid_entries",
    "Verif.Smo.C69_working_set_nu_violated"
   ],
   "note": "Full for SVC and SVR. nu variants: false when a class is used up before the working set is full (C69_working_set_nu_violated); proved when each class has at least ws_size entries. Overflow in maxpowtwo not modelled."
  },
  {
   "property": "C70",
   "status": "partial",
   "theorems": [
    "Verif.Smo.C70_box_and_gradient",
    "Verif.Smo.C70_equality_c",
    "Verif.Smo.C70_equality_nu_partial",
    "Verif.Smo.C70_equality_nu_violated"
   ],
   "note": "Exact arithmetic over any ordered field. Box and gradient: all variants. Equality constraint: SVC, SVR; nu variants when each class has at least ws_size entries, false otherwise (C70_equality_nu_violated). Scalar wssi/wssj; half-precision tolerance not modelled; tau > 0."
  },
  {
   "property": "C71",
   "status": "partial",
   "theorems": [
    "Verif.Smo.C71_objective_c",
    "Verif.Smo.C71_objective_nu_partial",
    "Verif.Smo.C71_objective_nu_violated"
   ],
   "note": "Exact arithmetic. SVC, SVR; nu variants when each class has at least ws_size entries, false otherwise (C71_objective_nu_violated)."
  },
  {
   "property": "C72",
   "status": "partial",
   "theorems": [
    "Verif.Smo.C72_optimal_c_partial",
    "Verif.Smo.C72_optimal_nu_partial",
    "Verif.Smo.C72_optimal_c_violated",
    "Verif.Smo.C72_optimal_nu_violated"
   ],
   "note": "Exact arithmetic, gradients below the largest number. Proved for working sets of at least 3 (SVC, SVR) or 7 (nu, with as many entries in each class); false for 2 and 4 (C72_optimal_c_violated, C72_optimal_nu_violated)."
  },
  {
   "property": "C73",
   "status": "partial",
   "theorems": [
    "Verif.Smo.C73_warm_svc",
    "Verif.Smo.C73_warm_nusvr",
    "Verif.Smo.C73_warm_partial",
    "Verif.Smo.C73_warm_svr_exact",
    "Verif.Smo.C73_warm_svr_violated",
    "Verif.Smo.C73_warm_nusvc_violated",
    "Verif.Smo.C73_box_violated"
   ],
   "note": "Exact arithmetic. The gradient is right for C-SVC and nu-SVR, and for the others if some coefficient is not zero; otherwise it is wrong for epsilon-SVR and nu-SVC (C73_warm_svr_violated, C73_warm_nusvc_violated, exact extent in C73_warm_svr_exact). The box is violated when the low-precision C is rounded up (C73_box_violated)."
  },
  {
   "property": "C74",
   "status": "proved",
   "theorems": [
    "Verif.Smo.C74_update_gradient",
    "Verif.Smo.C74_update_gradient_model",
    "Verif.Smo.C74_initial_gradient_nusvc",
    "Verif.Smo.C74_initial_gradient_nusvr"
   ],
   "note": "Exact arithmetic. The columns are right by C44."
  },
  {
   "property": "C75",
   "status": "partial",
   "theorems": [
    "Verif.Smo.C75_start_svc",
    "Verif.Smo.C75_start_svr",
    "Verif.Smo.C75_start_nusvr",
    "Verif.Smo.C75_start_nusvc",
    "Verif.Smo.C75_start_nusvc_partial",
    "Verif.Smo.C75_start_nusvc_violated",
    "Verif.Smo.C75_trained_c"
   ],
   "note": "Exact arithmetic. Proved for C-SVC, epsilon-SVR and nu-SVR; nu-SVC needs classes of at least nu*n/2 samples (C75_start_nusvc_violated otherwise). C75_trained_c continues to any number of iterations."
  },
  {
   "property": "C76",
   "status": "proved",
   "theorems": [
    "Verif.Smo.C76_decision_function",
    "Verif.Smo.C76_bounds",
    "Verif.Smo.C76_dropped"
   ],
   "note": "Exact arithmetic; kernel values and norms of a block are those of C44."
  },
  {
   "property": "C77",
   "status": "partial",
   "theorems": [
    "Verif.Smo.C77_bias_c",
    "Verif.Smo.C77_margin_svc",
    "Verif.Smo.C77_residual_svr",
    "Verif.Smo.C77_margin_nusvc",
    "Verif.Smo.C77_residual_nusvr",
    "Verif.Smo.C77_between_violated",
    "Verif.Smo.C77_between_partial",
    "Verif.Smo.C77_nu_between_violated",
    "Verif.Smo.C77_nu_between_partial",
    "Verif.Smo.C77_trained_svc"
   ],
   "note": "Exact arithmetic. Margins and residuals proved for all four models (nu-SVC for a positive scale), and end to end for C-SVC (C77_trained_svc). The bias between gradients is violated for a single class and for nu at its upper limit (C77_between_violated, C77_nu_between_violated), proved otherwise."
  },
  {
   "property": "C78",
   "status": "partial",
   "theorems": [
    "Verif.SvmMulti.C78_first_fit_partial",
    "Verif.SvmMulti.C78_refit_violated",
    "Verif.SvmMulti.C78_counts_grow",
    "Verif.SvmMulti.C78_counts_violated",
    "Verif.SvmMulti.C78_counts_first_partial",
    "Verif.SvmMulti.C78_vectors_violated",
    "Verif.SvmMulti.C78_vectors_partial"
   ],
   "note": "Exact arithmetic, training replaced by arbitrary multipliers. Proved for the first compute after set_data; violated for a second one (C78_refit_violated: write outside; C78_counts_violated) and for ldx > n_samples (C78_vectors_violated)."
  },
  {
   "property": "C79",
   "status": "partial",
   "theorems": [
    "Verif.SvmMulti.C79_votes",
    "Verif.SvmMulti.C79_confidence",
    "Verif.SvmMulti.C79_predict",
    "Verif.SvmMulti.C79_winner",
    "Verif.SvmMulti.C79_ovr_votes",
    "Verif.SvmMulti.C79_ovr_max",
    "Verif.SvmMulti.C79_ovr_violated",
    "Verif.SvmMulti.C79_ovr_partial"
   ],
   "note": "Exact arithmetic. All parts proved except the agreement of predict with the largest one-versus-rest value, violated for equal votes (C79_ovr_violated) and proved without ties."
  },
  {
   "property": "C80",
   "status": "partial",
   "theorems": [
    "Verif.SvmMulti.Handle.C80_released_violated",
    "Verif.SvmMulti.Handle.C80_released_labels_violated",
    "Verif.SvmMulti.Handle.C80_predict_violated",
    "Verif.SvmMulti.Handle.C80_stale_violated",
    "Verif.SvmMulti.Handle.C80_violated",
    "Verif.SvmMulti.Handle.C80_features_violated",
    "Verif.SvmMulti.Handle.C80_partial",
    "Verif.SvmMulti.Handle.C80_repaired",
    "Verif.SvmMulti.Handle.C80_usable",
    "Verif.SvmMulti.Handle.C80_norms",
    "Verif.SvmMulti.Handle.C80_rbf_violated",
    "Verif.SvmMulti.Handle.C80_rbf_partial"
   ],
   "note": "Violated by a failed set_data on a handle with data (C80_released_violated, C80_predict_violated, C80_stale_violated) and by a second fit with the RBF kernel (C80_rbf_violated). Proved for sequences without a failed set_data on a handle with data (C80_partial), after a successful set_data in any state (C80_repaired), and for the first fit (C80_rbf_partial gives the error of fit k)."
  },
  {
   "property": "C81",
   "status": "partial",
   "theorems": [
    "Verif.SvmProb.C81_sigmoid",
    "Verif.SvmProb.C81_distribution",
    "Verif.SvmProb.C81_predict_proba",
    "Verif.SvmProb.C81_descent",
    "Verif.SvmProb.C81_optimal",
    "Verif.SvmProb.C81_consistent",
    "Verif.SvmProb.C81_binary_violated",
    "Verif.SvmProb.C81_binary_partial"
   ],
   "note": "Exact arithmetic. Proved: clamped logistic value (C81_sigmoid), distribution for every iteration limit (C81_distribution, C81_predict_proba), descent (C81_descent), near-optimality when the stopping test is met (C81_optimal), consistent pairs (C81_consistent). The two-class clause is violated (C81_binary_violated: a pairwise probability of 0.504 gives 1/2); within 0.005 otherwise (C81_binary_partial)."
  },
  {
   "property": "C82",
   "status": "partial",
   "theorems": [
    "Verif.SvmProb.C82_cross_validation",
    "Verif.SvmProb.C82_one_fold",
    "Verif.SvmProb.C82_newton_matrix",
    "Verif.SvmProb.C82_slope",
    "Verif.SvmProb.C82_newton",
    "Verif.SvmProb.C82_targets",
    "Verif.SvmProb.C82_term",
    "Verif.SvmProb.C82_optimal",
    "Verif.SvmProb.C82_status_violated",
    "Verif.SvmProb.C82_status_partial",
    "Verif.SvmProb.C82_platt"
   ],
   "note": "Exact arithmetic; the fold classifiers are arbitrary functions of their training samples; exp and log are the real functions where convexity is needed. C82_cross_validation, C82_newton_matrix, C82_slope, C82_newton, C82_optimal, C82_platt. The status clause is violated (C82_status_violated); it holds when there are not more folds than samples (C82_status_partial)."
  },
  {
   "property": "C83",
   "status": "partial",
   "theorems": [
    "Verif.Interp.C83_accepts",
    "Verif.Interp.C83_sites_partial",
    "Verif.Interp.C83_uniform_partial",
    "Verif.Interp.C83_defined",
    "Verif.Interp.C83_bounds",
    "Verif.Interp.C83_float_violated",
    "Verif.Interp.C83_double_violated",
    "Verif.Interp.C83_range_violated"
   ],
   "note": "Exact arithmetic: C83_accepts, C83_sites_partial, C83_uniform_partial, C83_defined (the conversion to integer is defined exactly when it fits). For any rounding the returned cell exists (C83_bounds). The full statement is violated for float (C83_float_violated) and double (C83_double_violated): the index computed with rounding excludes the right cell; C83_range_violated: points far from the sites make the conversion undefined."
  },
  {
   "property": "C84",
   "status": "partial",
   "theorems": [
    "Verif.Interp.C84_spline",
    "Verif.Interp.C84_hermite",
    "Verif.Interp.C84_ld_violated",
    "Verif.Interp.C84_ld_partial",
    "Verif.Interp.C84_solvable",
    "Verif.Interp.C84_unique",
    "Verif.Interp.C84_reproduces",
    "Verif.Interp.C84_eval",
    "Verif.Interp.C84_orders_violated",
    "Verif.Interp.C84_evaluate",
    "Verif.Interp.C84_orders_partial"
   ],
   "note": "Exact arithmetic over any field (ordered where uniqueness is needed); gtsv with its contract. C84_spline, C84_hermite, C84_solvable, C84_unique, C84_reproduces, C84_eval, C84_evaluate. Violated: leading dimension (C84_ld_violated; holds for tight storage, C84_ld_partial) and order of the blocks (C84_orders_violated; holds for increasing requests, C84_orders_partial)."
  },
  {
   "property": "C85",
   "status": "partial",
   "theorems": [
    "Verif.Interp.C85_null_violated",
    "Verif.Interp.C85_dim_violated",
    "Verif.Interp.C85_bc_violated",
    "Verif.Interp.C85_stale_violated",
    "Verif.Interp.C85_order_violated",
    "Verif.Interp.C85_deriv_violated",
    "Verif.Interp.C85_failed_violated",
    "Verif.Interp.C85_evaluate",
    "Verif.Interp.C85_failed_partial",
    "Verif.Interp.C85_accepted",
    "Verif.Interp.C85_partial"
   ],
   "note": "Exact arithmetic. All three clauses are violated, each with a concrete sequence: C85_null_violated, C85_dim_violated, C85_bc_violated (safety), C85_stale_violated, C85_order_violated, C85_deriv_violated (results), C85_failed_violated (failures). C85_partial: sequences with known models, one dimension and storage order, tight arrays, and no unsorted sites before uniform sites are safe and correct. C85_evaluate: evaluate is safe after any sequence. C85_failed_partial: everything a failing call can change."
  },
  {
   "property": "C86",
   "status": "partial",
   "theorems": [
    "Verif.Kmeans.C86_violated",
    "Verif.Kmeans.C86_nearest_partial",
    "Verif.Kmeans.C86_iteration_partial",
    "Verif.Kmeans.C86_same_labels_partial",
    "Verif.Kmeans.C86_euclidean_partial",
    "Verif.Kmeans.C86_spherical_partial",
    "Verif.Kmeans.C86_reduction"
   ],
   "note": "Exact arithmetic; handling of empty clusters not included. C86_violated: with a schedule in which a thread runs another block after the last one (allowed for schedule(dynamic)) samples lose their labels. C86_nearest_partial, C86_iteration_partial, C86_same_labels_partial: for blocks in increasing order on every thread, any number of threads, clusters, iterations, any lock orders, every kernel, for any distance with triangle inequalities; C86_euclidean_partial and C86_spherical_partial are the two distances over the reals. C86_reduction: the vector reduction."
  },
  {
   "property": "C87",
   "status": "proved",
   "theorems": [
    "Verif.Kmeans.C87_nearest",
    "Verif.Kmeans.C87_iteration",
    "Verif.Kmeans.C87_perform"
   ],
   "note": "Exact arithmetic; gemm, the norm of LAPACK and the square root are external. Handling of empty clusters not included. The padding of workc1 is required to hold infinity, as kmeans.cpp:614-617 stores."
  },
  {
   "property": "C88",
   "status": "proved",
   "theorems": [
    "Verif.Kmeans.C88_inertia",
    "Verif.Kmeans.C88_spherical",
    "Verif.Kmeans.C88_stops"
   ],
   "note": "Exact arithmetic. C88_stops is for Euclidean distances and without handling of empty clusters; C88_spherical needs centres no longer than one, which the iteration keeps."
  },
  {
   "property": "C89",
   "status": "partial",
   "theorems": [
    "Verif.Kmeans.C89_violated",
    "Verif.Kmeans.C89_exact",
    "Verif.Kmeans.C89_kernels_partial"
   ],
   "note": "C89_violated: three clusters and two lanes, one sample with a tie: other labels and other centres. C89_exact: among the nearest centres the first lane wins, then the lowest index. C89_kernels_partial: without ties all kernels agree in labels and centres for any number of iterations."
  },
  {
   "property": "C90",
   "status": "partial",
   "theorems": [
    "Verif.Kmeans.C90_violated",
    "Verif.Kmeans.C90_first_violated",
    "Verif.Kmeans.C90_first_partial",
    "Verif.Kmeans.C90_means",
    "Verif.Kmeans.C90_exact",
    "Verif.Kmeans.C90_nearest_partial",
    "Verif.Kmeans.C90_inertia_partial",
    "Verif.Kmeans.C90_stops_partial"
   ],
   "note": "Exact arithmetic. C90_violated and C90_first_violated: samples 1, 2, 10, 11 from centres 10 and 1. C90_means holds for every run. C90_exact gives the labels of every run; nearest, inertia and end are proved when every initial centre has the norm of the first mean of its label (nearest for spherical clustering always)."
  },
  {
   "property": "C91",
   "status": "partial",
   "theorems": [
    "Verif.Kmeans.C91_error",
    "Verif.Kmeans.C91_split_partial",
    "Verif.Kmeans.C91_spherical_partial",
    "Verif.Kmeans.C91_filled_partial",
    "Verif.Kmeans.C91_violated"
   ],
   "note": "Exact arithmetic. C91_violated: spherical clustering, two samples in one of two clusters. C91_error for every call. Euclidean distances: C91_split_partial has everything. Spherical: counts, new centres and centres not touched (C91_spherical_partial), no empty cluster (C91_filled_partial)."
  },
  {
   "property": "C92",
   "status": "partial",
   "theorems": [
    "Verif.Kmeans.C92_full_violated",
    "Verif.Kmeans.C92_nearest_violated",
    "Verif.Kmeans.C92_elkan_violated",
    "Verif.Kmeans.C92_nearest_partial",
    "Verif.Kmeans.C92_macqueen_partial"
   ],
   "note": "Exact arithmetic. Three negations: C92_full_violated (last labelling empties a cluster), C92_nearest_violated (spherical, labels not nearest although they stayed), C92_elkan_violated (half distances of the centres before the split). Euclidean Lloyd: C92_nearest_partial has nearest labels, means of full clusters, and full clusters if the labels stayed. MacQueen with right stored norms: C92_macqueen_partial. Elkan after a split: only the negation."
  },
  {
   "property": "C93",
   "status": "partial",
   "theorems": [
    "Verif.Kmeans.C93_inertia",
    "Verif.Kmeans.C93_violated",
    "Verif.Kmeans.C93_stops_partial"
   ],
   "note": "Exact arithmetic, Euclidean distances. C93_inertia for every iteration with its handling. C93_violated: equal samples. C93_stops_partial: at least as many different samples as clusters."
  },
  {
   "property": "C94",
   "status": "partial",
   "theorems": [
    "Verif.Kmeans.C94_violated",
    "Verif.Kmeans.C94_error_partial",
    "Verif.Kmeans.C94_ignore",
    "Verif.Kmeans.C94_macqueen_partial"
   ],
   "note": "C94_violated: the last labelling is not looked at. C94_error_partial and C94_macqueen_partial say exactly when the run fails and that it is the plain run otherwise. C94_ignore."
  },
  {
   "property": "C95",
   "status": "partial",
   "theorems": [
    "Verif.Coord.C95_violated",
    "Verif.Coord.C95_gap_partial"
   ],
   "note": "Exact arithmetic. C95_violated: for scale only the data are already divided by the root of the number of samples, but the gap multiplies the penalties by the number again. C95_gap_partial: all other scalings (and what the gap does bound for scale only)."
  },
  {
   "property": "C96",
   "status": "partial",
   "theorems": [
    "Verif.Coord.C96_violated",
    "Verif.Coord.C96_sklearn_violated",
    "Verif.Coord.C96_glm_partial",
    "Verif.Coord.C96_sklearn_partial"
   ],
   "note": "Exact arithmetic. Violated for both step functions: C96_violated (GLMnet puts the last change in only at the next step), C96_sklearn_violated (a step below 2 eps is dropped by the solver but not from the residual). C96_glm_partial, C96_sklearn_partial say when it is right."
  },
  {
   "property": "C97",
   "status": "partial",
   "theorems": [
    "Verif.Coord.C97_violated",
    "Verif.Coord.C97_glm",
    "Verif.Coord.C97_sklearn_partial",
    "Verif.Coord.C97_noDrop"
   ],
   "note": "Exact arithmetic. C97_glm in full for the GLMnet step with divisors that are not zero (C104). C97_violated for the scikit-learn step; C97_sklearn_partial if no step that is not zero is dropped (always so if eps is zero, C97_noDrop)."
  },
  {
   "property": "C98",
   "status": "partial",
   "theorems": [
    "Verif.Coord.C98_violated",
    "Verif.Coord.C98_sklearn_violated",
    "Verif.Coord.C98_sklearn_partial",
    "Verif.Coord.C98_glm_partial"
   ],
   "note": "Exact arithmetic. C98_violated (GLMnet, stale residual, warm start), C98_sklearn_violated (dropped step). C98_sklearn_partial without dropped steps; C98_glm_partial if the last coefficient of the last cycle did not change."
  },
  {
   "property": "C99",
   "status": "partial",
   "theorems": [
    "Verif.Coord.C99_violated",
    "Verif.Coord.C99_zero_partial"
   ],
   "note": "Exact arithmetic. C99_violated for scale only. C99_zero_partial: all other scalings, for all data."
  },
  {
   "property": "C100",
   "status": "partial",
   "theorems": [
    "Verif.Coord.C100_violated",
    "Verif.Coord.C100_ends_partial"
   ],
   "note": "C100_violated: restart = 0, which the option allows. C100_ends_partial: restart not zero and maxit*n+n-1 representable as da_int (the code forms iter*n+k)."
  },
  {
   "property": "C101",
   "status": "proved",
   "theorems": [
    "Verif.Coord.C101_fair"
   ],
   "note": "Needs restart not zero and integers wide enough, as C100. The comment at coord.hpp:963-966 says that a coordinate at its limit is left deactivated; in fact it is evaluated in every cycle, since skip is not below skipmax then."
  },
  {
   "property": "C102",
   "status": "partial",
   "theorems": [
    "Verif.Coord.C102_violated",
    "Verif.Coord.C102_check_partial"
   ],
   "note": "C102_violated: the flag of a failed step is overwritten by the next call. C102_check_partial: failures of the check are reported at once, and those of the step never (for all runs)."
  },
  {
   "property": "C103",
   "status": "proved",
   "theorems": [
    "Verif.Coord.C103_bounds"
   ],
   "note": "Exact arithmetic; values are numbers (no NaN)."
  },
  {
   "property": "C104",
   "status": "partial",
   "theorems": [
    "Verif.Coord.C104_violated",
    "Verif.Coord.C104_divisor_partial"
   ],
   "note": "C104_violated: scale only, a feature that is zero (or constant with an intercept), no quadratic penalty: 0/0. C104_divisor_partial says exactly when. Standardize with a constant feature is outside Data.Ok (preprocess_data divides by zero before, or sets std_xv to 1 for a zero column)."
  },
  {
   "property": "C105",
   "status": "proved",
   "theorems": [
    "Verif.Moments.C105_every_entry_is_added_once",
    "Verif.Moments.C105_only_the_matrix_matters"
   ],
   "note": "The summands are values of a commutative monoid, so rounding, and with it the order of the additions, is outside the model. RECURSIVE_SUM_THRESHOLD is a parameter that is positive."
  },
  {
   "property": "C106",
   "status": "proved",
   "theorems": [
    "Verif.Moments.C106_partial_sums_are_freed"
   ],
   "note": "Allocation does not fail."
  },
  {
   "property": "C107",
   "status": "proved",
   "theorems": [
    "Verif.Moments.C107_mean",
    "Verif.Moments.C107_variance",
    "Verif.Moments.C107_moment",
    "Verif.Moments.C107_bad_arguments"
   ],
   "note": "Exact arithmetic. With one observation and dof = 0 the documented degrees of freedom are 0; the code gives 0."
  },
  {
   "property": "C108",
   "status": "proved",
   "theorems": [
    "Verif.Moments.C108_kurtosis",
    "Verif.Moments.C108_skewness"
   ],
   "note": "Exact arithmetic; skewness with any square root. The value -3 for constant lines is below the bound -2 of all other data."
  },
  {
   "property": "C109",
   "status": "proved",
   "theorems": [
    "Verif.Moments.C109_geometric_mean"
   ],
   "note": "Exact arithmetic with exp and log given by their laws; minus infinity is a value of its own."
  },
  {
   "property": "C110",
   "status": "partial",
   "theorems": [
    "Verif.Moments.C110_between_violated",
    "Verif.Moments.C110_between_partial",
    "Verif.Moments.C110_zeros"
   ],
   "note": "Exact arithmetic. C110_between_violated: 0 and 1 give 2. C110_between_partial: all lines without zeros. C110_zeros: exactly what happens with zeros."
  },
  {
   "property": "C111",
   "status": "partial",
   "theorems": [
    "Verif.Moments.C111_documented_violated",
    "Verif.Moments.C111_documented_partial",
    "Verif.Moments.C111_given_shifts",
    "Verif.Moments.C111_errors"
   ],
   "note": "Exact arithmetic, any square root. C111_documented_violated: the deviation about given shifts uses the number of results as the number of observations. C111_documented_partial: all other calls. C111_given_shifts: exactly what those calls compute, and when they divide by zero."
  },
  {
   "property": "C112",
   "status": "partial",
   "theorems": [
    "Verif.Moments.C112_undo_violated",
    "Verif.Moments.C112_undo_partial"
   ],
   "note": "Exact arithmetic, any function for the square root that is zero only at zero. C112_undo_violated: constant data that are not zero, one result, dof = 0. C112_undo_partial: all other calls."
  },
  {
   "property": "C113",
   "status": "partial",
   "theorems": [
    "Verif.Cov.C113_covariance_partial",
    "Verif.Cov.C113_correlation_partial",
    "Verif.Cov.C113_no_memory",
    "Verif.Cov.C113_errors",
    "Verif.Cov.C113_success_violated"
   ],
   "note": "Exact arithmetic; the correlations for any exact square root. C113_success_violated: the status of da_syrk is ignored, so a failed allocation leaves the matrix unwritten and reports success. C113_no_memory: exactly that case. C113_covariance_partial and C113_correlation_partial: all other calls with at least two rows. C113_errors: the reports, among them the refusal of one row, which the documentation allows."
  },
  {
   "property": "C114",
   "status": "proved",
   "theorems": [
    "Verif.Cov.C114_blocked_product",
    "Verif.Cov.C114_no_memory"
   ],
   "note": "Exact arithmetic. C114_blocked_product: the value of every entry of the triangle, all other cells unchanged. C114_no_memory: the failed allocation."
  },
  {
   "property": "C115",
   "status": "proved",
   "theorems": [
    "Verif.BarnesHut.C115_points_in_octant_order"
   ],
   "note": "Exact comparison of coordinates in an ordered field; no NaN."
  },
  {
   "property": "C116",
   "status": "partial",
   "theorems": [
    "Verif.BarnesHut.C116_tree_partial",
    "Verif.BarnesHut.C116_any_dimension_partial",
    "Verif.BarnesHut.C116_one_dimension_violated"
   ],
   "note": "Exact arithmetic. C116_statement: the full property for a dimension. C116_tree_partial: two and three dimensions. C116_one_dimension_violated: in one dimension the arena can be full, and nine equal points stay in a leaf that is not at the greatest depth. C116_any_dimension_partial: everything else holds in one dimension too. The reservations are any that give free slots (what C118 says about them)."
  },
  {
   "property": "C117",
   "status": "proved",
   "theorems": [
    "Verif.BarnesHut.C117_repulsive_forces",
    "Verif.BarnesHut.C117_exact_forces"
   ],
   "note": "Exact arithmetic; the means and distances are not rounded, so the threshold test is exact. C117_repulsive_forces: any theta. C117_exact_forces: theta = 0. The reservations are any that give free slots."
  },
  {
   "property": "C118",
   "status": "partial",
   "theorems": [
    "Verif.BarnesHut.Slots.C118_slots_given_twice",
    "Verif.BarnesHut.Slots.C118_slots_skipped",
    "Verif.BarnesHut.Slots.C118_all_fits_partial",
    "Verif.BarnesHut.Slots.C118_calm_partial"
   ],
   "note": "C118_statement: the full property. C118_slots_given_twice and C118_slots_skipped: counterexamples, possible only when the arena gets full, so (C116) only in one dimension. C118_all_fits_partial: all executions in which everything fits. C118_calm_partial: executions in which no request is made while another is to be taken back, as with one thread."
  },
  {
   "property": "C119",
   "status": "proved",
   "theorems": [
    "Verif.Tsne.C119_exact",
    "Verif.Tsne.C119_nearest"
   ],
   "note": "The distances and neighbours are arguments, with distinct neighbours for each sample."
  },
  {
   "property": "C120",
   "status": "proved",
   "theorems": [
    "Verif.Tsne.C120_row",
    "Verif.Tsne.C120_root"
   ],
   "note": "Exact arithmetic; exp is any non-negative function, so underflow to 0 is covered, but not overflow of beta to infinity or rounding in the sums."
  },
  {
   "property": "C121",
   "status": "proved",
   "theorems": [
    "Verif.Tsne.C121_affinities"
   ],
   "note": "Exact arithmetic; with rounding the sum is 1 up to rounding. At least one neighbour per sample."
  },
  {
   "property": "C122",
   "status": "proved",
   "theorems": [
    "Verif.Tsne.C122_kernels",
    "Verif.Tsne.C122_exact",
    "Verif.Tsne.C122_parts"
   ],
   "note": "Exact arithmetic: C122_kernels, C122_exact, C122_parts. The forces from the Barnes-Hut tree are the subject of C117."
  },
  {
   "property": "C123",
   "status": "proved",
   "theorems": [
    "Verif.Tsne.C123_value",
    "Verif.Tsne.C123_derivative"
   ],
   "note": "C123_value: any ordered field and any function log. C123_derivative: real numbers, divergence without the lower bounds, and equality with the reported value when they do not take effect."
  },
  {
   "property": "C124",
   "status": "proved",
   "theorems": [
    "Verif.Tsne.C124_update"
   ],
   "note": "Exact arithmetic, with 0.2, 0.8 and 0.01 as the rational numbers."
  },
  {
   "property": "C125",
   "status": "partial",
   "theorems": [
    "Verif.ApproxNn.C125_numbering_violated",
    "Verif.ApproxNn.C125_index_content",
    "Verif.ApproxNn.C125_index_content_partial"
   ],
   "note": "C125_numbering_violated: training again empties the lists but the numbers go on. C125_index_content gives the exact numbering; C125_index_content_partial is the property when the handle is not trained while the index holds rows. Both assume that the handle is not trained again with more lists than samples and that the storage order is not changed before training. Exact arithmetic; the train fraction is 1."
  },
  {
   "property": "C126",
   "status": "partial",
   "theorems": [
    "Verif.ApproxNn.C126_search_partial",
    "Verif.ApproxNn.C126_exact_when_all_probed",
    "Verif.ApproxNn.C126_overflow_violated"
   ],
   "note": "C126_overflow_violated: when a distance to a centroid reaches the largest number of the type, positions of the heap that were never written are taken for centroids. C126_search_partial assumes distances to centroids below it and C126_exact_when_all_probed also distances to rows. Exact arithmetic; squared Euclidean distance or minus the inner product, before the final conversion."
  },
  {
   "property": "C127",
   "status": "partial",
   "theorems": [
    "Verif.ApproxNn.C127_zero_block_violated",
    "Verif.ApproxNn.C127_square_violated",
    "Verif.ApproxNn.C127_block_sizes_partial",
    "Verif.ApproxNn.C127_exact_extent",
    "Verif.ApproxNn.C127_add_block_size"
   ],
   "note": "C127_zero_block_violated (64-bit, 524288 features in double precision: division by zero) and C127_square_violated (32-bit, 46341 features: overflow). C127_block_sizes_partial with C127_exact_extent is the exact extent; C127_add_block_size holds in full. The square root is exact."
  },
  {
   "property": "C128",
   "status": "partial",
   "theorems": [
    "Verif.ApproxNn.C128_failed_training_violated",
    "Verif.ApproxNn.C128_storage_order_violated",
    "Verif.ApproxNn.C128_no_fault_partial"
   ],
   "note": "C128_failed_training_violated and C128_storage_order_violated are the two ways in which it fails; C128_no_fault_partial covers all other sequences."
  },
  {
   "property": "C129",
   "status": "proved",
   "theorems": [
    "Verif.Logistic.C129_objective",
    "Verif.Logistic.C129_gradient"
   ],
   "note": "Real arithmetic; derivatives where the penalty has one (coefficient not 0, or no l1 part, or the intercept). Gradients for a matrix stored by columns, which is what fit passes."
  },
  {
   "property": "C130",
   "status": "partial",
   "theorems": [
    "Verif.Logistic.C130_exact_extent",
    "Verif.Logistic.C130_penalty_violated",
    "Verif.Logistic.C130_objective_partial",
    "Verif.Logistic.C130_gradient"
   ],
   "note": "C130_penalty_violated: only class 0 is penalized (C130_exact_extent). C130_objective_partial: no penalty or two classes. C130_gradient holds in full for the objective as it is."
  },
  {
   "property": "C131",
   "status": "partial",
   "theorems": [
    "Verif.Logistic.C131_objective",
    "Verif.Logistic.C131_gradient_partial",
    "Verif.Logistic.C131_exact_extent",
    "Verif.Logistic.C131_new_gradient_violated"
   ],
   "note": "C131_new_gradient_violated: with new linear combinations the sum of exponentials has an extra 1 (C131_exact_extent). C131_gradient_partial: after the objective, as the solver does. C131_objective holds in full."
  },
  {
   "property": "C132",
   "status": "partial",
   "theorems": [
    "Verif.Logistic.C132_two",
    "Verif.Logistic.C132_reference",
    "Verif.Logistic.C132_negative_scores_violated",
    "Verif.Logistic.C132_exact_extent",
    "Verif.Logistic.C132_soft_partial",
    "Verif.Logistic.C132_score"
   ],
   "note": "C132_negative_scores_violated: with a set of coefficients per class, class 0 is returned when no score is positive. C132_exact_extent and C132_soft_partial give what holds; C132_two, C132_reference and C132_score hold in full. Real arithmetic."
  },
  {
   "property": "C133",
   "status": "partial",
   "theorems": [
    "Verif.Logistic.C133_two",
    "Verif.Logistic.C133_reference",
    "Verif.Logistic.C133_underflow_violated",
    "Verif.Logistic.C133_soft_partial"
   ],
   "note": "C133_underflow_violated for a set of coefficients per class: the maximum starts at 0. C133_soft_partial: every sample has a score that is not negative. C133_two and C133_reference hold in full (the latter for the objective of C130_exact_extent)."
  },
  {
   "property": "C134",
   "status": "proved",
   "theorems": [
    "Verif.Logistic.C134_objective",
    "Verif.Logistic.C134_gradient"
   ],
   "note": "Real arithmetic; derivatives where the penalty has one. A division by zero for no samples is excluded by fit."
  },
  {
   "property": "C135",
   "status": "proved",
   "theorems": [
    "Verif.LeastSq.C135_roundtrip"
   ],
   "note": "Field arithmetic. With a scale that is zero the maps divide by zero (C136)."
  },
  {
   "property": "C136",
   "status": "partial",
   "theorems": [
    "Verif.LeastSq.C136_constant_feature_violated",
    "Verif.LeastSq.C136_constant_response_violated",
    "Verif.LeastSq.C136_exact_extent",
    "Verif.LeastSq.C136_scaling_partial"
   ],
   "note": "C136_constant_feature_violated: with standardize a constant feature has scale 0 and revert_scaling divides by it. C136_constant_response_violated: scale only divides a constant response by 0. C136_exact_extent: no division by zero exactly outside these cases; C136_scaling_partial: the property whenever there is none. Real arithmetic."
  },
  {
   "property": "C137",
   "status": "proved",
   "theorems": [
    "Verif.LeastSq.C137_ridge",
    "Verif.LeastSq.C137_succeeds",
    "Verif.LeastSq.C137_objectives",
    "Verif.LeastSq.C137_coord_data"
   ],
   "note": "Stated for runs without a division by zero; C137_succeeds says when that is. The objectives of L-BFGS-B and coordinate descent are those of C134 and C95 (C137_objectives), the data are as C95 to C104 assume (C137_coord_data), and the direct solvers are C139 and C140. QR is taken to minimise the squares; its calls of LAPACK are not modelled. Real arithmetic."
  },
  {
   "property": "C138",
   "status": "partial",
   "theorems": [
    "Verif.LeastSq.C138_ridge_violated",
    "Verif.LeastSq.C138_limit_violated",
    "Verif.LeastSq.C138_elastic_partial"
   ],
   "note": "C138_ridge_violated: for alpha = 0 the squares are added up and not averaged, so the documented cost is minimised for lambda divided by the number of samples. C138_limit_violated: with scale only ridge regression is not the limit of the elastic net. C138_elastic_partial: alpha > 0, or standardize."
  },
  {
   "property": "C139",
   "status": "proved",
   "theorems": [
    "Verif.LeastSq.C139_well",
    "Verif.LeastSq.C139_under",
    "Verif.LeastSq.C139_min_norm",
    "Verif.LeastSq.C139_fit"
   ],
   "note": "The solution of the system, by potrf and potrs or by the conjugate gradient iteration, is a hypothesis. Real arithmetic."
  },
  {
   "property": "C140",
   "status": "partial",
   "theorems": [
    "Verif.LeastSq.C140_ridge",
    "Verif.LeastSq.C140_violated",
    "Verif.LeastSq.C140_limit_violated",
    "Verif.LeastSq.C140_exact_extent",
    "Verif.LeastSq.C140_plain_partial"
   ],
   "note": "C140_violated and C140_limit_violated: the loop overwrites S[0] by its inverse before it uses it in the limit for the other singular values. C140_exact_extent: the limit in effect; C140_plain_partial: largest singular value at least 1, or products above the limit. C140_ridge holds in full. gesdd is a contract (IsSvd). Real arithmetic."
  },
  {
   "property": "C141",
   "status": "proved",
   "theorems": [
    "Verif.LeastSq.C141_copy"
   ],
   "note": "Exact. The offsets are natural numbers, da_int overflow is not modelled."
  },
  {
   "property": "C142",
   "status": "proved",
   "theorems": [
    "Verif.PairDist.C142_sqeuclidean",
    "Verif.PairDist.C142_manhattan",
    "Verif.PairDist.C142_buffers"
   ],
   "note": "Field arithmetic: rounding and overflow are not modelled. A schedule is an order of whole blocks of rows. C142_buffers: the packing buffers suffice."
  },
  {
   "property": "C143",
   "status": "proved",
   "theorems": [
    "Verif.PairDist.C143_euclidean",
    "Verif.PairDist.C143_minkowski"
   ],
   "note": "Real arithmetic with the exact root and power."
  },
  {
   "property": "C144",
   "status": "partial",
   "theorems": [
    "Verif.PairDist.C144_computed",
    "Verif.PairDist.C144_cosine_violated",
    "Verif.PairDist.C144_self_zero",
    "Verif.PairDist.C144_cosine_partial",
    "Verif.PairDist.C144_documented_partial"
   ],
   "note": "C144_cosine_violated: the sample 1 against 2, 1, ..., 1 with 1025 samples; the distance of the last pair comes out as 1/2 and not 0. C144_computed: what is computed for every input; C144_self_zero: for one matrix the distance between samples j and 1024 + j always comes out as 0. C144_cosine_partial and C144_documented_partial: up to 1024 samples in the second matrix. Real arithmetic."
  },
  {
   "property": "C145",
   "status": "proved",
   "theorems": [
    "Verif.PairDist.C145_sqeuclidean_gemm",
    "Verif.PairDist.C145_euclidean_gemm",
    "Verif.PairDist.C145_inner_product",
    "Verif.PairDist.C145_modes"
   ],
   "note": "gemm and syrk are contracts (their results as sums). Field arithmetic; the root is any function that is 0 at 0. The reduced precision special case is not modelled."
  },
  {
   "property": "C146",
   "status": "proved",
   "theorems": [
    "Verif.PairDist.C146_accepted",
    "Verif.PairDist.C146_codes"
   ],
   "note": "The check of the data for NaN belongs to the callers and is not modelled."
  },
  {
   "property": "C147",
   "status": "partial",
   "theorems": [
    "Verif.KernelFn.C147_crash",
    "Verif.KernelFn.C147_linear_violated",
    "Verif.KernelFn.C147_linear_partial",
    "Verif.KernelFn.C147_polynomial_partial",
    "Verif.KernelFn.C147_sigmoid_partial"
   ],
   "note": "C147_crash: with one matrix of more than 256 samples and more than one thread the null pointer Y is dereferenced, and in no other case. C147_linear_violated follows. C147_linear_partial, C147_polynomial_partial and C147_sigmoid_partial: the documented values in every other case. Real arithmetic with the exact functions; gemm and syrk are contracts."
  },
  {
   "property": "C148",
   "status": "partial",
   "theorems": [
    "Verif.KernelFn.C148_blocked",
    "Verif.KernelFn.C148_rbf_violated",
    "Verif.KernelFn.C148_rbf_partial",
    "Verif.KernelFn.C148_range_partial"
   ],
   "note": "C148_rbf_violated: 256 samples at 1 and 256 at 0 with two threads; a kernel value comes out as e instead of 1/e. C148_blocked: what is computed instead for one matrix of full blocks. C148_rbf_partial and C148_range_partial: every other case. Real arithmetic with the exact functions; gemm and syrk are contracts."
  },
  {
   "property": "C149",
   "status": "proved",
   "theorems": [
    "Verif.KernelFn.C149_accepts",
    "Verif.KernelFn.C149_invalid_input"
   ],
   "note": "The check of the data for NaN belongs to the callers and is not modelled."
  },
  {
   "property": "C150",
   "status": "proved",
   "theorems": [
    "Verif.TallSkinny.C150_syrk"
   ],
   "note": "Field arithmetic; cblas_syrk is a contract. A run is any list of blocks with their threads in which each thread takes its blocks in increasing order and thread 0 has at least one, as a static schedule guarantees."
  },
  {
   "property": "C151",
   "status": "partial",
   "theorems": [
    "Verif.TallSkinny.C151_extent",
    "Verif.TallSkinny.C151_short_blocks",
    "Verif.TallSkinny.C151_violated",
    "Verif.TallSkinny.C151_overflow",
    "Verif.TallSkinny.C151_blocks_partial"
   ],
   "note": "C151_violated, C151_short_blocks: 4072 rows and 1025 columns with four or more threads give blocks of 1024 rows. C151_overflow: by how much tau is exceeded. C151_extent: the exact condition. C151_blocks_partial: up to 1024 columns."
  },
  {
   "property": "C152",
   "status": "proved",
   "theorems": [
    "Verif.TallSkinny.C152_qr",
    "Verif.TallSkinny.C152_qr_1024"
   ],
   "note": "Exact arithmetic over an ordered field. geqrf and orgqr are contracts: together they give an orthonormal and a triangular factor; sound_exists shows that over the reals the contract can be met. C152_qr_1024: without the hidden setting up to 1024 columns always qualify; for the others see C151. Only with store_factors; the variant with geqrt3 is not modelled."
  },
  {
   "property": "C153",
   "status": "proved",
   "theorems": [
    "Verif.KnnPredict.C153_proba",
    "Verif.KnnPredict.C153_classes",
    "Verif.KnnPredict.C153_distribution"
   ],
   "note": "Exact arithmetic over an ordered field; the neighbour search appears as the arrays it returns; imatcopy by its contract."
  },
  {
   "property": "C154",
   "status": "partial",
   "theorems": [
    "Verif.KnnPredict.C154_violated",
    "Verif.KnnPredict.C154_extent",
    "Verif.KnnPredict.C154_outvoted",
    "Verif.KnnPredict.C154_weights_partial"
   ],
   "note": "Violated: a distance up to epsilon gets weight 1, a distance d between epsilon and 1 gets 1/d > 1. C154_extent: exactly then. C154_outvoted: a query that coincides with a training sample is given another class. C154_weights_partial: the rest."
  },
  {
   "property": "C155",
   "status": "partial",
   "theorems": [
    "Verif.KnnPredict.C155_wrong_class",
    "Verif.KnnPredict.C155_wrong_label",
    "Verif.KnnPredict.C155_outside",
    "Verif.KnnPredict.C155_corrupts",
    "Verif.KnnPredict.C155_violated",
    "Verif.KnnPredict.C155_extent",
    "Verif.KnnPredict.C155_manual_partial"
   ],
   "note": "Violated: 1.0 is stored at proba[classes[manual_label_index] + j_local], the label in place of its position. C155_wrong_class, C155_wrong_label (labels 1, 2), C155_outside (labels 5, 7: store outside of the array), C155_corrupts (labels -1, 1: the row of another query). C155_extent: with a query without neighbours and an outlier label among the classes the result is right exactly when the label equals its position. C155_manual_partial: the positive part."
  },
  {
   "property": "C156",
   "status": "partial",
   "theorems": [
    "Verif.KnnPredict.C156_stale_classes",
    "Verif.KnnPredict.C156_violated",
    "Verif.KnnPredict.C156_wrong_label",
    "Verif.KnnPredict.C156_stale_position",
    "Verif.KnnPredict.C156_extent",
    "Verif.KnnPredict.C156_first_labels_partial"
   ],
   "note": "Violated: set_labels does not reset classes_computed, most_frequent_label_computed and manual_outlier_label_checked, and set_params overwrites manual_label without resetting the latter. C156_stale_classes, C156_wrong_label, C156_stale_position; C156_extent: the classes of the first prediction are never replaced. C156_first_labels_partial: right as long as neither labels nor data are set after the first prediction."
  },
  {
   "property": "C157",
   "status": "proved",
   "theorems": [
    "Verif.KnnPredict.C157_most_frequent",
    "Verif.KnnPredict.C157_knn",
    "Verif.KnnPredict.C157_radius",
    "Verif.KnnPredict.C157_none"
   ],
   "note": "Exact arithmetic; cblas_iamax as in the reference BLAS. Radius neighbours with outlier handling = manual are in C155."
  },
  {
   "property": "C158",
   "status": "proved",
   "theorems": [
    "Verif.KnnPredict.C158_knn",
    "Verif.KnnPredict.C158_between",
    "Verif.KnnPredict.C158_radius"
   ],
   "note": "Exact arithmetic; da_basic_statistics::mean by its contract (C105). mean_target is passed in as the mean of the targets in force; that it is not recomputed after set_targets is in Findings."
  },
  {
   "property": "C159",
   "status": "partial",
   "theorems": [
    "Verif.KnnPredict.C159_outside",
    "Verif.KnnPredict.C159_violated",
    "Verif.KnnPredict.C159_extent",
    "Verif.KnnPredict.C159_uniform_partial"
   ],
   "note": "Violated: the size of pred_targets is the maximum of the numbers of neighbours of all queries but the last. C159_extent: a store outside exactly when there are two queries or more and the last has more neighbours than every other. C159_uniform_partial: right otherwise."
  },
  {
   "property": "C160",
   "status": "proved",
   "theorems": [
    "Verif.KernelPca.C160_training",
    "Verif.KernelPca.C160_rows",
    "Verif.KernelPca.C160_new"
   ],
   "note": "Exact arithmetic; the means by their contract (C105); the kernel functions appear as the array they return, assumed symmetric."
  },
  {
   "property": "C161",
   "status": "proved",
   "theorems": [
    "Verif.KernelPca.C161_eigenvalues",
    "Verif.KernelPca.C161_eigenvectors",
    "Verif.KernelPca.C161_fails"
   ],
   "note": "Exact arithmetic; syevd by its contract (ascending eigenvalues and eigenvectors of the matrix in the upper triangle); the tolerances are parameters. The randomized solver is approximate and not covered."
  },
  {
   "property": "C162",
   "status": "proved",
   "theorems": [
    "Verif.KernelPca.C162_new",
    "Verif.KernelPca.C162_training"
   ],
   "note": "Exact arithmetic; cblas_gemm by its contract, the square root by its defining property."
  },
  {
   "property": "C163",
   "status": "partial",
   "theorems": [
    "Verif.KernelPca.C163_extent",
    "Verif.KernelPca.C163_violated",
    "Verif.KernelPca.C163_same_option_partial"
   ],
   "note": "Violated: compute never resets inverse_fitted. C163_extent: available also when an earlier compute has fitted it, with the dual coefficients of that one. C163_same_option_partial: right while the option stays the same."
  },
  {
   "property": "C164",
   "status": "partial",
   "theorems": [
    "Verif.KernelPca.C164_violated",
    "Verif.KernelPca.C164_extent",
    "Verif.KernelPca.C164_success_partial"
   ],
   "note": "Violated: a compute that fails leaves model_trained and n_components of the model before and eigenvalues of length n_samples, all of which get_result copies. C164_extent: so after every failure of this kind. C164_success_partial: right after a successful compute."
  },
  {
   "property": "C165",
   "status": "partial",
   "theorems": [
    "Verif.KernelPca.C165_violated",
    "Verif.KernelPca.C165_search_partial"
   ],
   "note": "Violated: eigenvalues.resize(n_samples, 0) keeps the values of the model before, and da_random_syevd overwrites only the first n_components. C165_search_partial: right with the dense solver or when the model before has no more components."
  },
  {
   "property": "C166",
   "status": "proved",
   "theorems": [
    "Verif.Pca.C166_copy",
    "Verif.Pca.C166_gram",
    "Verif.Pca.C166_total"
   ],
   "note": "Exact arithmetic; the means and variances by their contracts (C105-C112), da_syrk by its contract."
  },
  {
   "property": "C167",
   "status": "proved",
   "theorems": [
    "Verif.Pca.C167_transform",
    "Verif.Pca.C167_training"
   ],
   "note": "Exact arithmetic; cblas_gemm and cblas_gemv by their contracts; the decomposition enters C167_training as a hypothesis (standardised data times component = singular value times column of U)."
  },
  {
   "property": "C168",
   "status": "partial",
   "theorems": [
    "Verif.Pca.C168_extent",
    "Verif.Pca.C168_inverse_partial",
    "Verif.Pca.C168_violated"
   ],
   "note": "Violated: standardize takes shifts that are all 0 for a request to compute the means, so for a model with means 0 inverse_transform adds the means of its own product and leaves them in the model. C168_extent: exactly then; C168_inverse_partial: right otherwise."
  },
  {
   "property": "C169",
   "status": "partial",
   "theorems": [
    "Verif.Pca.C169_back_partial",
    "Verif.Pca.C169_violated"
   ],
   "note": "Violated as C168. C169_back_partial: right when some mean (and, for the correlation method, some deviation) is not 0."
  },
  {
   "property": "C170",
   "status": "partial",
   "theorems": [
    "Verif.Pca.C170_extent",
    "Verif.Pca.C170_divisor_partial",
    "Verif.Pca.C170_correlation",
    "Verif.Pca.C170_violated"
   ],
   "note": "Violated: dof is set to -1 by a biased compute and never set back, while div is. C170_extent: exactly after a biased compute; C170_correlation: what the total variance becomes; C170_divisor_partial: right otherwise."
  },
  {
   "property": "C171",
   "status": "partial",
   "theorems": [
    "Verif.Pca.C171_extent",
    "Verif.Pca.C171_data",
    "Verif.Pca.C171_first_partial",
    "Verif.Pca.C171_same_partial",
    "Verif.Pca.C171_violated",
    "Verif.Pca.C171_violated_data"
   ],
   "note": "Violated twice: qr stays set for a later compute with the randomized solver and 'store u', and a refused set_data on a handle with row-major data leaves A null and initdone set. C171_extent: exactly then; C171_first_partial and C171_same_partial: right for the first compute after set_data and while the randomized solver is not used."
  },
  {
   "property": "C172",
   "status": "partial",
   "theorems": [
    "Verif.Pca.C172_success_partial",
    "Verif.Pca.C172_extent",
    "Verif.Pca.C172_data",
    "Verif.Pca.C172_violated"
   ],
   "note": "Violated: compute sets store_U and ns before it refuses syevd with 'store u' and leaves model_trained. C172_extent: exactly when U is shorter than the options ask for; C172_success_partial: right after a successful compute."
  },
  {
   "property": "C173",
   "status": "partial",
   "theorems": [
    "Verif.CheckData.C173_reported",
    "Verif.CheckData.C173_moderate_partial",
    "Verif.CheckData.C173_arguments",
    "Verif.CheckData.C173_violated"
   ],
   "note": "Violated: the test x == x + 1 also rejects infinities and big numbers, 2^55 in double precision. C173_reported: NaNs, infinities and all numbers from 2^(prec+2) on are rejected; C173_moderate_partial: right when the entries are NaN or at most 2^prec - 2. In between it depends on the parity of the last digit."
  },
  {
   "property": "C174",
   "status": "proved",
   "theorems": [
    "Verif.CheckData.C174_check2D",
    "Verif.CheckData.C174_check1D",
    "Verif.CheckData.C174_store_status",
    "Verif.CheckData.C174_store_entries"
   ],
   "note": "store_2D_array for handles with options and in modes 0 and 3 (status) and 0 (entries); the transposition by its contract (C37)."
  },
  {
   "property": "C175",
   "status": "proved",
   "theorems": [
    "Verif.Pca.C175_signs",
    "Verif.Pca.C175_decomposition"
   ],
   "note": "In exact arithmetic, no NaN; for computations with 'store u' (without it the loop is not entered)."
  }
 ]
}